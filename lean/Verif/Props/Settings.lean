import Verif.Proofs.Settings
import Verif.Props.Coherent
/-
Property theorems C117 and C118: locked memory, and access, at every point of every program.
-/
namespace Vmap
open Kernel Spec

section
variable {tab : SysTable} {t : Target} {k0 : Kernel}

/-! ### C117 -/

/-- The step does not unlock any byte of `[off, off+len)` of handle `i`. -/
def Spec.NoUnlock (i off len : Nat) (_ : World) (op : Op) : Prop :=
  ∀ a l, op = .unlock i a l → a + l ≤ off ∨ off + len ≤ a

/-- The step does not unlock any byte on a page of `[off, off+len)` of handle `i`, the map `m`. -/
def Spec.NoPageUnlock (i : Nat) (m : MapMut) (off len : Nat) (w : World) (op : Op) : Prop :=
  ∀ a l, op = .unlock i a l → ∀ q, OnPage w.k.page (m.ptr + off) len q →
    ¬ OnPage w.k.page (m.ptr + a) l q

/-- C117 in full: bytes locked with `lock_range` stay locked, whatever the program does, as long as
it keeps the map and does not unlock any of these bytes.  False of the code: `C117_false`. -/
def C117_full : Prop :=
  ∀ (tab : SysTable) (t : Target) (k0 : Kernel) (w w' : World) (i : Nat) (m : MapMut) (off len : Nat)
    (k1 : Kernel), Wf t k0 → Reach tab t k0 w → w.held i = some (.map m) → off + len < t.lim →
    m.lockRange t w.k off len = .ok (k1, .ok ()) →
    Path tab t (NoUnlock i off len) (w.run k1) w' → w'.held i = some (.map m) →
    ∀ j, off ≤ j → j < off + len → Locked w'.k (m.ptr + j)

/-- C117 for programs that do not unlock any byte on the same pages either.  (Missing: programs that
unlock other bytes of a page the locked bytes lie on; the page is unlocked then.) -/
theorem C117_partial (wf : Wf t k0) {w w' : World} (reach : Reach tab t k0 w) {i : Nat} {m : MapMut}
    (hm : w.held i = some (.map m)) {off len : Nat} (sane : off + len < t.lim) {k1 : Kernel}
    (call : m.lockRange t w.k off len = .ok (k1, .ok ()))
    (path : Path tab t (NoPageUnlock i m off len) (w.run k1) w') (held : w'.held i = some (.map m))
    {j : Nat} (h1 : off ≤ j) (h2 : j < off + len) : Locked w'.k (m.ptr + j) := by
  have v := reach.inv wf
  have hu := v.wf.page_pos
  obtain ⟨st, fx⟩ := lockRange_fx (tab := tab) v hm sane call
  have r1 : Reach tab t k0 (w.run k1) := .step (op := .lock i off len) reach sane st
  obtain ⟨hin, hd⟩ := fx.done rfl
  have hj : j < m.len := by omega
  have hon : ∀ u, 0 < u → OnPage u (m.ptr + off) len ((m.ptr + j) / u) := by
    intro u hu
    have a := Nat.div_mul_le_self (m.ptr + j) u
    have b := Nat.lt_div_mul_add hu (a := m.ptr + j)
    exact ⟨by omega, by rw [Nat.succ_mul]; omega⟩
  have l1 : Locked k1 (m.ptr + j) := by
    obtain ⟨p, n, g⟩ := v.live i _ hm
    obtain ⟨e, he⟩ := g.mapped _ ((onPage_iff g.pages _).mp (onPage_byte hu hj)).1
      ((onPage_iff g.pages _).mp (onPage_byte hu hj)).2
    obtain ⟨e', g1, -, g3, -⟩ := hd _ e he
    exact ⟨e', by rw [fx.page]; exact g1, g3 (hon _ hu)⟩
  have next : i < (w.run k1).next := by
    apply Decidable.byContradiction
    intro hn
    have := v.unused i (Nat.le_of_not_lt hn)
    rw [hm] at this
    cases this
  have key : ∀ {w2 : World}, Path tab t (NoPageUnlock i m off len) (w.run k1) w2 →
      Reach tab t k0 w2 ∧ i < w2.next ∧
      (w2.held i = some (.map m) → Locked w2.k (m.ptr + j)) := by
    intro w2 p
    induction p with
    | refl => exact ⟨r1, next, fun _ => l1⟩
    | @step w1 w2 op before sane good st ih =>
      obtain ⟨a, b, c⟩ := ih
      have nx : i < w2.next := by
        rcases step_shape st with ⟨k, rfl⟩ | ⟨k, h, rfl⟩ | ⟨j, x, y, h1, h2, h3, h4⟩
        · exact b
        · exact Nat.lt_succ_of_lt b
        · rw [h2]; exact b
      refine ⟨.step a sane st, nx, fun hh => ?_⟩
      obtain ⟨b1, b2, -⟩ := step_back st b hh
      have v2 := a.inv wf
      exact locked_step v2 sane st b1 b2 hj
        (fun a l ho => good a l ho _ (hon _ v2.wf.page_pos)) (c b1)
  exact (key path).2.2 held

/-! ### C118 -/

/-- C118: at every point of every program, which bytes of a map are locked and whether it can be
written through is what the calls on this map alone say (`Settings`). -/
theorem C118_settings (wf : Wf t k0) {w w' : World} {i m p} (made : NewMap tab t k0 w i m p) {a l}
    (since : Settings tab t i m p w w' a l) {j : Nat} (hj : j < m.len) :
    (Locked w'.k (m.ptr + j) ↔ l j) ∧ (Writable w'.k (m.ptr + j) ↔ a = true) := by
  obtain ⟨-, -, -, s⟩ := since.inv wf made
  obtain ⟨e, h1, h2, h3⟩ := s j hj
  refine ⟨⟨fun ⟨e', g1, g2⟩ => ?_, fun h => ⟨e, h1, h3.mpr h⟩⟩,
    ⟨fun ⟨e', g1, g2⟩ => ?_, fun h => ⟨e, h1, by rw [h2]; exact h⟩⟩⟩
  · rw [h1] at g1; injection g1 with g1; subst g1; exact h3.mp g2
  · rw [h1] at g1; injection g1 with g1; subst g1; rw [← h2]; exact g2

/-- C118: a store through the map is a fault (SIGSEGV) if the map cannot be written through, and works
if it can and the byte can be read. -/
theorem C118_store (wf : Wf t k0) {w w' : World} {i m p} (made : NewMap tab t k0 w i m p) {a l}
    (since : Settings tab t i m p w w' a l) {j : Nat} (hj : j < m.len) (b : Byte) :
    (a = false → m.set w'.k j b = .error .memory) ∧
    (a = true → (∃ b', m.get w'.k j = .ok b') → ∃ k2, m.set w'.k j b = .ok k2) := by
  obtain ⟨-, -, -, s⟩ := since.inv wf made
  obtain ⟨e, h1, h2, -⟩ := s j hj
  rw [MapMut.set, if_pos hj, MapMut.get, if_pos hj]
  unfold Kernel.store Kernel.load
  rw [h1]
  dsimp only
  refine ⟨fun ha => ?_, fun ha ⟨b', hb⟩ => ?_⟩
  · rw [h2, ha]; rfl
  · rw [h2, ha]
    cases hbk : w'.k.backed e with
    | false => rw [hbk, Bool.and_false] at hb; cases hb
    | true =>
      simp only [Bool.and_self, if_true]
      split
      · exact ⟨_, rfl⟩
      · split <;> exact ⟨_, rfl⟩

/-- Every program has such settings (helper). -/
theorem path_settings (wf : Wf t k0) {w w' : World} {i m p} (made : NewMap tab t k0 w i m p)
    {ok : World → Op → Prop} (path : Path tab t ok w w') (held : w'.held i = some (.map m)) :
    ∃ a l, Settings tab t i m p w w' a l ∧ (writes p = true → a = true) ∧
      ((∀ w1 op, ok w1 op → op ≠ .intoMapMut i ∧ op ≠ .intoMap i) → a = writes p) := by
  obtain ⟨r0, n0, m0, -⟩ := made.inv wf
  have key : ∀ {w2 : World}, Path tab t ok w w2 → Reach tab t k0 w2 ∧ i < w2.next ∧
      (w2.held i = some (.map m) → ∃ a l, Settings tab t i m p w w2 a l ∧
        (writes p = true → a = true) ∧
        ((∀ w1 op, ok w1 op → op ≠ .intoMapMut i ∧ op ≠ .intoMap i) → a = writes p)) := by
    intro w2 path
    induction path with
    | refl => exact ⟨r0, n0, fun _ => ⟨_, _, .made, id, fun _ => rfl⟩⟩
    | @step w1 w2 op before sane good st ih =>
      obtain ⟨r1, i1, ih⟩ := ih
      have nx : i < w2.next := by
        rcases step_shape st with ⟨k, rfl⟩ | ⟨k, h, rfl⟩ | ⟨j, x, y, h1, h2, h3, h4⟩
        · exact i1
        · exact Nat.lt_succ_of_lt i1
        · rw [h2]; exact i1
      refine ⟨.step r1 sane st, nx, fun hh => ?_⟩
      obtain ⟨b1, b2, -⟩ := step_back st i1 hh
      obtain ⟨a, l, s, x1, x2⟩ := ih b1
      have v := r1.inv wf
      by_cases c1 : ∃ off len, op = .lock i off len
      · obtain ⟨off, len, rfl⟩ := c1
        obtain ⟨k', r, c, -⟩ := lock_fx v b1 (off := off) (len := len) sane true .lock
        obtain ⟨st', -⟩ := lockRange_fx (tab := tab) v b1 sane c
        rw [st] at st'
        injection st' with st'
        subst st'
        exact ⟨_, _, s.lock sane c, x1, x2⟩
      by_cases c2 : ∃ off len, op = .unlock i off len
      · obtain ⟨off, len, rfl⟩ := c2
        obtain ⟨k', r, c, -⟩ := lock_fx v b1 (off := off) (len := len) sane false .unlock
        obtain ⟨st', -⟩ := unlockRange_fx (tab := tab) v b1 sane c
        rw [st] at st'
        injection st' with st'
        subst st'
        exact ⟨_, _, s.unlock sane c, x1, x2⟩
      by_cases c3 : op = .intoMapMut i
      · subst c3
        cases c : (Map.mk m).intoMapMut t w1.k with
        | error f => simp only [World.step, World.onMap, b1, c, bind, Except.bind] at st; cases st
        | ok x =>
          obtain ⟨k', r⟩ := x
          obtain ⟨st', -⟩ := intoMapMut_fx (tab := tab) v b1 c
          rw [st] at st'
          injection st' with st'
          subst st'
          exact ⟨_, _, s.intoMapMut c, fun h => by rw [x1 h]; rfl,
            fun h => absurd rfl (h _ _ good).1⟩
      by_cases c4 : op = .intoMap i
      · subst c4
        cases c : m.intoMap t w1.k with
        | error f => simp only [World.step, World.onMap, b1, c, bind, Except.bind] at st; cases st
        | ok x =>
          obtain ⟨k', r⟩ := x
          obtain ⟨st', -⟩ := intoMap_fx (tab := tab) v b1 c
          rw [st] at st'
          injection st' with st'
          subst st'
          exact ⟨_, _, s.intoMap c, fun h => by rw [x1 h]; rfl,
            fun h => absurd rfl (h _ _ good).2⟩
      exact ⟨a, l, s.other sane st hh (fun x y h => c1 ⟨x, y, h⟩) (fun x y h => c2 ⟨x, y, h⟩) c3 c4,
        x1, x2⟩
  exact (key path).2.2 held

/-- C118: a map made without write access cannot be written through, at any later point of any program
that does not call `into_map_mut` or `into_map` on it: every store is a fault. -/
theorem C118_readonly (wf : Wf t k0) {w w' : World} {i m p} (made : NewMap tab t k0 w i m p)
    (hp : p = .readOnly ∨ p = .readExec)
    (path : Path tab t (fun _ op => op ≠ .intoMapMut i ∧ op ≠ .intoMap i) w w')
    (held : w'.held i = some (.map m)) {j : Nat} (hj : j < m.len) (b : Byte) :
    m.set w'.k j b = .error .memory := by
  obtain ⟨a, l, s, -, h⟩ := path_settings wf made path held
  refine (C118_store wf made s hj b).1 ?_
  rw [h (fun _ _ x => x)]
  rcases hp with rfl | rfl <;> rfl

/-- C118: a map made with write access can be written through wherever it can be read, at any later
point of any program, whatever has been called on it. -/
theorem C118_writable (wf : Wf t k0) {w w' : World} {i m p} (made : NewMap tab t k0 w i m p)
    (hp : p = .readWrite ∨ p = .readCopy) (path : Path tab t (fun _ _ => True) w w')
    (held : w'.held i = some (.map m)) {j : Nat} (hj : j < m.len)
    (readable : ∃ b, m.get w'.k j = .ok b) (b : Byte) : ∃ k2, m.set w'.k j b = .ok k2 := by
  obtain ⟨a, l, s, h, -⟩ := path_settings wf made path held
  exact (C118_store wf made s hj b).2 (h (by rcases hp with rfl | rfl <;> rfl)) readable

end

/-! ### C117 is false, and non-vacuity -/

/-- A program that maps the demo file writable and locks its first 100 bytes, -/
def lock0 : World := (World.start (demo 0)).next! (.mapIf Options.new.write 3)
def lock1 : World := lock0.next! (.lock 0 0 100)
/-- and then unlocks 100 other bytes, of the same page, -/
def lock2 : World := lock1.next! (.unlock 0 200 100)
/-- or of another page. -/
def lock3 : World := lock1.next! (.unlock 0 5000 100)

theorem next_lock {w : World} {i off len : Nat} {m : MapMut} (hm : w.held i = some (.map m))
    (h : (match m.lockRange ⟨.w64, true⟩ w.k off len with
      | .ok (_, .ok ()) => true
      | _ => false) = true) :
    ∃ k1, m.lockRange ⟨.w64, true⟩ w.k off len = .ok (k1, .ok ()) ∧
      w.next! (.lock i off len) = w.run k1 := by
  cases hx : m.lockRange ⟨.w64, true⟩ w.k off len with
  | error e => rw [hx] at h; cases h
  | ok x =>
    obtain ⟨k1, r⟩ := x
    cases r with
    | error e => rw [hx] at h; cases h
    | ok u =>
      refine ⟨k1, rfl, ?_⟩
      simp only [World.next!, World.step, World.onMap, hm, hx, bind, Except.bind, pure, Except.pure]

theorem lock0_reach : Reach demoTab ⟨.w64, true⟩ (demo 0) lock0 :=
  .step (op := .mapIf Options.new.write 3) .start ⟨trivial, trivial, by decide⟩
    (World.next!_eq (by decide +kernel))

theorem lock0_new : NewMap demoTab ⟨.w64, true⟩ (demo 0) lock0 0 ⟨8192000, 10000⟩ .readWrite := by
  obtain ⟨k1, a1, a2⟩ := next_map (w := World.start (demo 0)) (o := Options.new.write) (fd := 3)
    (m := ⟨8192000, 10000⟩) (by decide +kernel)
  have f : Fits ⟨.w64, true⟩ Options.new.write := ⟨trivial, trivial, by decide⟩
  have := NewMap.map (tab := demoTab) (t := ⟨.w64, true⟩) (k0 := demo 0) .start f a1
  rw [← a2] at this
  exact this

/-- Unlocking other bytes of the same page unlocks the page. -/
theorem C117_false : ¬ C117_full := by
  intro hall
  have hm : lock0.held 0 = some (.map ⟨8192000, 10000⟩) := held_map (by decide +kernel)
  obtain ⟨k1, c1, c2⟩ := next_lock (off := 0) (len := 100) hm (by decide +kernel)
  obtain ⟨e, h1, h2⟩ := hall demoTab ⟨.w64, true⟩ (demo 0) lock0 lock2 0 ⟨8192000, 10000⟩ 0 100 k1
    (demo_wf 0) lock0_reach hm (by decide) c1
    (by
      rw [← c2]
      refine .step (op := .unlock 0 200 100) .refl (show 200 + 100 < _ by decide) ?_
        (World.next!_eq (by decide +kernel))
      intro a l h
      injection h with h3 h4 h5
      subst h4 h5
      exact .inr (by decide))
    (held_map (by decide +kernel)) 50 (by decide) (by decide)
  have : (match lock2.k.pt ((8192000 + 50) / lock2.k.page) with
    | some e => e.locked
    | none => false) = false := by decide +kernel
  rw [h1] at this
  dsimp only at this
  rw [h2] at this
  cases this

/-- Non-vacuity of C117: unlocking bytes of another page does no harm. -/
example : Locked lock3.k (8192000 + 50) := by
  have hm : lock0.held 0 = some (.map ⟨8192000, 10000⟩) := held_map (by decide +kernel)
  obtain ⟨k1, c1, c2⟩ := next_lock (off := 0) (len := 100) hm (by decide +kernel)
  refine C117_partial (w' := lock3) (m := ⟨8192000, 10000⟩) (j := 50) (off := 0) (len := 100)
    (demo_wf 0) lock0_reach hm (by decide) c1 ?_ (held_map (by decide +kernel)) (by decide) (by decide)
  rw [← c2]
  refine .step (op := .unlock 0 5000 100) .refl (show 5000 + 100 < _ by decide) ?_
    (World.next!_eq (by decide +kernel))
  intro a l h q h1 h2
  injection h with h3 h4 h5
  subst h4 h5
  have hp : lock1.k.page = 4096 := by decide +kernel
  have h1 := h1.1
  have h2 := h2.2
  change q * lock1.k.page < 8192000 + 0 + 100 at h1
  change 8192000 + 5000 < (q + 1) * lock1.k.page at h2
  rw [hp] at h1 h2
  omega

/-- Non-vacuity of C118: in that program the map's second page, which nobody locked, is not locked, and
the map is writable. -/
example : ¬ Locked lock1.k (8192000 + 5000) ∧ Locked lock1.k (8192000 + 4000) ∧
    Writable lock1.k (8192000 + 5000) := by
  have hm : lock0.held 0 = some (.map ⟨8192000, 10000⟩) := held_map (by decide +kernel)
  obtain ⟨k1, c1, c2⟩ := next_lock (off := 0) (len := 100) hm (by decide +kernel)
  have s := (Settings.made (tab := demoTab) (t := ⟨.w64, true⟩) (i := 0) (m := ⟨8192000, 10000⟩)
    (p := .readWrite) (w := lock0)).lock (by decide) c1
  rw [← c2] at s
  have hp : lock0.k.page = 4096 := by decide +kernel
  have h5 := C118_settings (j := 5000) (demo_wf 0) lock0_new s (by decide)
  have h4 := C118_settings (j := 4000) (demo_wf 0) lock0_new s (by decide)
  refine ⟨fun h => ?_, h4.1.mpr (.inr ⟨rfl, ?_⟩), h5.2.mpr rfl⟩
  · rcases h5.1.mp h with h | ⟨-, h⟩
    · exact h
    · have h := h.1
      change (8192000 + 5000) / lock0.k.page * lock0.k.page < 8192000 + 0 + 100 at h
      rw [hp] at h
      revert h
      decide
  · rw [hp]
    constructor
    · show (8192000 + 4000) / 4096 * 4096 < 8192000 + 0 + 100; decide
    · show 8192000 + 0 < ((8192000 + 4000) / 4096 + 1) * 4096; decide

/-- Non-vacuity of C118: a map made for reading. -/
example : (⟨8192000, 10000⟩ : MapMut).set ((World.start (demo 0)).next! (.mapIf Options.new 3)).k 7 1 =
    .error .memory := by
  obtain ⟨k1, a1, a2⟩ := next_map (w := World.start (demo 0)) (o := Options.new) (fd := 3)
    (m := ⟨8192000, 10000⟩) (by decide +kernel)
  have f : Fits ⟨.w64, true⟩ Options.new := ⟨trivial, trivial, by decide⟩
  have new := NewMap.map (tab := demoTab) (t := ⟨.w64, true⟩) (k0 := demo 0) .start f a1
  rw [a2]
  exact C118_readonly (demo_wf 0) new (.inl rfl) .refl rfl (by decide) 1

/-- Non-vacuity of C118: a map made for writing. -/
example : ∃ k2, (⟨8192000, 10000⟩ : MapMut).set lock2.k 7 1 = .ok k2 := by
  refine C118_writable (w' := lock2) (demo_wf 0) lock0_new (.inl rfl)
    (.step (op := .unlock 0 200 100) (.step (op := .lock 0 0 100) .refl
      (show 0 + 100 < _ by decide) trivial (World.next!_eq (by decide +kernel)))
      (show 200 + 100 < _ by decide) trivial (World.next!_eq (by decide +kernel)))
    (held_map (by decide +kernel)) (by decide) ?_ 1
  have : (match (⟨8192000, 10000⟩ : MapMut).get lock2.k 7 with
    | .ok _ => true
    | .error _ => false) = true := by decide +kernel
  split at this
  · rename_i b hb; exact ⟨b, hb⟩
  · cases this

end Vmap
