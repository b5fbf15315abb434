import Verif.Model.Views
import Verif.Props.MapUse
import Verif.Props.World
/-
Property theorems C99 and C100: the views of a map, and `?` on a failed conversion.
-/
namespace Vmap
open Kernel Spec

/-! ### C99 -/

/-- A slice shows exactly the bytes of map `m`: as many, and each reads as `map[i]` does (also in that
an index out of range panics), in every state. -/
def Spec.Shows (s : Slice) (m : MapMut) : Prop :=
  s.len = m.len ∧ ∀ k i, s.get k i = m.get k i

/-- A slice gives write access to exactly the bytes of map `m`. -/
def Spec.Edits (s : Slice) (m : MapMut) : Prop :=
  s.len = m.len ∧ ∀ k i b, s.set k i b = m.set k i b

/-- C99: `&*map`, `map.as_ref()` and the slice made of `map.as_ptr()` and `map.len()` show the same
bytes, for a `MapMut` and for a `Map`. -/
theorem C99_read (m : MapMut) (n : Map) :
    Shows m.deref m ∧ Shows m.asRef m ∧ Shows ⟨m.asPtr, m.spanLen⟩ m ∧ Shows m.derefMut m ∧
    Shows m.asMut m ∧ Shows n.deref n.inner ∧ Shows n.asRef n.inner ∧
    Shows ⟨n.asPtr, n.spanLen⟩ n.inner := by
  refine ⟨?_, ?_, ?_, ?_, ?_, ?_, ?_, ?_⟩ <;> exact ⟨rfl, fun _ _ => rfl⟩

/-- C99: `&mut *map`, `map.as_mut()` and the slice made of `map.as_mut_ptr()` and `map.len()` change
the same bytes. -/
theorem C99_write (m : MapMut) :
    Edits m.derefMut m ∧ Edits m.asMut m ∧ Edits ⟨m.asMutPtr, m.spanLen⟩ m := by
  refine ⟨?_, ?_, ?_⟩ <;> exact ⟨rfl, fun _ _ _ => rfl⟩

/-- C99: what is stored through one view of a map is read through every other, for a map of shared or
private pages that may be written. -/
theorem C99_coherent {t : Target} {k : Kernel} (w : Wf t k) {m : MapMut} {o off sh mw prot}
    (hm : k.MapsAll m.ptr m.len o off sh mw prot) (hw : prot.w = true) (hr : prot.r = true)
    {s r : Slice} (hs : Edits s m) (hv : Shows r m) {i : Nat} (hi : i < m.len) (b : Byte) :
    ∃ k2, s.set k i b = .ok k2 ∧ r.get k2 i = .ok b := by
  obtain ⟨k2, e2, e3⟩ := store_maps w hm hr hw hi b
  refine ⟨k2, ?_, ?_⟩
  · rw [hs.2, MapMut.set, if_pos hi, e2]
  · rw [hv.2, MapMut.get, if_pos hi]
    rw [e3.load i hi, if_pos ⟨Nat.le_refl _, by simp⟩, Nat.sub_self]; rfl

/-- C99: converting through `TryFrom` is `into_map` and `into_map_mut`; the default options are the
ones `with_options` starts from, `MapMut`'s with write access; a plain number as a length
means exactly that length. -/
theorem C99_traits (t : Target) (k : Kernel) (m : Map) (x : MapMut) (n : Nat) :
    MapMut.tryFrom t k m = m.intoMapMut t k ∧ Map.tryFrom t k x = x.intoMap t k ∧
    Options.default = Map.withOptions ∧ Options.newMut = Options.default.write ∧
    Extent.ofNat n = .exact n := ⟨rfl, rfl, rfl, rfl, rfl⟩

/-! ### C100 -/

/-- The map `m`, which lies on pages `p` to `p + n`, has been given up: its pages are unmapped, and
nothing else has changed. -/
structure Spec.GivenUp (k k' : Kernel) (p n : Nat) : Prop where
  same : SameButPages k k'
  gone : ∀ q, p ≤ q → q < p + n → k'.pt q = none
  kept : ∀ q, ¬ (p ≤ q ∧ q < p + n) → k'.pt q = k.pt q

theorem dropped {t : Target} {k k0 : Kernel} (w : Wf t k) {m : MapMut} {p n : Nat}
    (g : Live t k m p n) (h0 : 0 < m.len) (s : SameButPages k0 k) (hpt : k.pt = k0.pt) :
    ∃ k', m.drop t k = .ok k' ∧ GivenUp k0 k' p n := by
  refine ⟨_, drop_eq w.page g.pages h0, ⟨?_, ?_, ?_⟩⟩
  · exact ⟨s.page, s.data, s.size, s.disk, s.fds, s.names, s.fresh, s.nextFd, s.oracle⟩
  · intro q a b; exact if_pos ⟨a, b⟩
  · intro q hq
    rw [← hpt]
    exact if_neg hq

/-- C100: `map.into_map_mut()?` either succeeds as `into_map_mut` does, or returns its error after
unmapping exactly the pages of the map. -/
theorem C100_into_map_mut {t : Target} {k : Kernel} (w : Wf t k) {m : Map} {p n : Nat}
    (g : Live t k m.inner p n) (h0 : 0 < m.inner.len) :
    ∃ k' r, m.intoMapMutQ t k = .ok (k', r) ∧
      ((∃ m', r = .ok m' ∧ m.intoMapMut t k = .ok (k', .ok m') ∧ m' = m.inner) ∨
       (∃ e, r = .error e ∧ e.operation = .protect ∧
        (∃ k1, m.intoMapMut t k = .ok (k1, .error (e, m))) ∧ GivenUp k k' p n)) := by
  obtain ⟨k1, r, hb, h1, w', s, g', -, hc⟩ := protect_whole w g
  rcases hc with ⟨rfl, -⟩ | ⟨err, rfl, ho, hpt⟩
  · have hm : m.intoMapMut t k = .ok (k1, .ok m.inner) := by
      simp only [Map.intoMapMut, hb, bind, Except.bind, h1]; rfl
    refine ⟨k1, .ok m.inner, ?_, .inl ⟨m.inner, rfl, hm, rfl⟩⟩
    simp only [Map.intoMapMutQ, hm, bind, Except.bind, pure, Except.pure]
  · have hm : m.intoMapMut t k = .ok (k1, .error (err, m)) := by
      simp only [Map.intoMapMut, hb, bind, Except.bind, h1]; rfl
    obtain ⟨k2, d, rel⟩ := dropped w' g' h0 s hpt
    refine ⟨k2, .error err, ?_, .inr ⟨err, rfl, ho, ⟨k1, hm⟩, rel⟩⟩
    simp only [Map.intoMapMutQ, hm, bind, Except.bind, pure, Except.pure, Map.drop, d, Error.ofConvert]

/-- C100: the same for `map.into_map()?`. -/
theorem C100_into_map {t : Target} {k : Kernel} (w : Wf t k) {m : MapMut} {p n : Nat}
    (g : Live t k m p n) (h0 : 0 < m.len) :
    ∃ k' r, m.intoMapQ t k = .ok (k', r) ∧
      ((∃ m', r = .ok m' ∧ m.intoMap t k = .ok (k', .ok m') ∧ m'.inner = m) ∨
       (∃ e, r = .error e ∧ e.operation = .protect ∧
        (∃ k1, m.intoMap t k = .ok (k1, .error (e, m))) ∧ GivenUp k k' p n)) := by
  obtain ⟨k1, r, hb, h1, w', s, g', -, hc⟩ := protect_whole w g
  rcases hc with ⟨rfl, -⟩ | ⟨err, rfl, ho, hpt⟩
  · have hm : m.intoMap t k = .ok (k1, .ok ⟨m⟩) := by
      simp only [MapMut.intoMap, hb, bind, Except.bind, h1]; rfl
    refine ⟨k1, .ok ⟨m⟩, ?_, .inl ⟨⟨m⟩, rfl, hm, rfl⟩⟩
    simp only [MapMut.intoMapQ, hm, bind, Except.bind, pure, Except.pure]
  · have hm : m.intoMap t k = .ok (k1, .error (err, m)) := by
      simp only [MapMut.intoMap, hb, bind, Except.bind, h1]; rfl
    obtain ⟨k2, d, rel⟩ := dropped w' g' h0 s hpt
    refine ⟨k2, .error err, ?_, .inr ⟨err, rfl, ho, ⟨k1, hm⟩, rel⟩⟩
    simp only [MapMut.intoMapQ, hm, bind, Except.bind, pure, Except.pure, d, Error.ofConvert]

/-- C100, in whole programs: a `?` conversion is a conversion, followed by a drop if it failed; so
everything said about whole programs (C75, C77, C95–C97) holds for programs that use it. -/
theorem C100_program {tab : SysTable} {t : Target} {w : World} {i : Nat} {m : MapMut}
    (hi : w.held i = some (.map m)) {k' : Kernel} :
    (∀ m', (Map.mk m).intoMapMutQ t w.k = .ok (k', .ok m') →
      w.step tab t (.intoMapMut i) = .ok (w.run k')) ∧
    (∀ e, (Map.mk m).intoMapMutQ t w.k = .ok (k', .error e) →
      ∃ w1 w2, w.step tab t (.intoMapMut i) = .ok w1 ∧ w1.step tab t (.drop i) = .ok w2 ∧
        w2.k = k' ∧ w2.held = fun j => if j = i then none else w.held j) := by
  cases hx : (Map.mk m).intoMapMut t w.k with
  | error e =>
    simp only [Map.intoMapMutQ, hx, bind, Except.bind]
    exact ⟨fun _ h => (by cases h), fun _ h => (by cases h)⟩
  | ok x =>
    obtain ⟨k1, r⟩ := x
    have st : w.step tab t (.intoMapMut i) = .ok (w.run k1) := by
      simp only [World.step, World.onMap, hi, hx, bind, Except.bind, pure, Except.pure]
    have held : (w.run k1).held i = some (.map m) := hi
    simp only [Map.intoMapMutQ, hx, bind, Except.bind, pure, Except.pure]
    cases r with
    | ok m1 =>
      refine ⟨fun m' h => ?_, fun e h => ?_⟩
      · injection h with h
        injection h with h
        rw [st, h]
      · injection h with h; injection h with _ h; cases h
    | error em =>
      obtain ⟨e1, m1⟩ := em
      have hm1 : m1 = ⟨m⟩ := by
        simp only [Map.intoMapMut, bind, Except.bind, pure, Except.pure] at hx
        split at hx
        · cases hx
        · split at hx
          · injection hx with hx; injection hx with _ hx; cases hx
          · injection hx with hx
            injection hx with _ hx
            injection hx with hx
            injection hx with _ hx
            exact hx.symm
      subst hm1
      dsimp only
      cases hd : m.drop t k1 with
      | error f =>
        simp only [Map.drop, hd]
        exact ⟨fun _ h => (by cases h), fun _ h => (by cases h)⟩
      | ok k2 =>
        simp only [Map.drop, hd]
        refine ⟨fun m' h => ?_, fun e h => ?_⟩
        · injection h with h; injection h with _ h; cases h
        · injection h with h
          injection h with h
          subst h
          have hd' : m.drop t (w.run k1).k = .ok k2 := hd
          have sd : (w.run k1).step tab t (.drop i) = .ok { (w.run k1).upd k2 i none with
              empties := if m.len = 0 then m :: w.empties else w.empties } := by
            simp only [World.step, held, bind, Except.bind, pure, Except.pure, hd']
            rfl
          exact ⟨_, _, st, sd, rfl, rfl⟩

/-- C100, in whole programs, for `map.into_map()?`. -/
theorem C100_program_into_map {tab : SysTable} {t : Target} {w : World} {i : Nat} {m : MapMut}
    (hi : w.held i = some (.map m)) {k' : Kernel} :
    (∀ m', m.intoMapQ t w.k = .ok (k', .ok m') →
      w.step tab t (.intoMap i) = .ok (w.run k')) ∧
    (∀ e, m.intoMapQ t w.k = .ok (k', .error e) →
      ∃ w1 w2, w.step tab t (.intoMap i) = .ok w1 ∧ w1.step tab t (.drop i) = .ok w2 ∧
        w2.k = k' ∧ w2.held = fun j => if j = i then none else w.held j) := by
  cases hx : m.intoMap t w.k with
  | error e =>
    simp only [MapMut.intoMapQ, hx, bind, Except.bind]
    exact ⟨fun _ h => (by cases h), fun _ h => (by cases h)⟩
  | ok x =>
    obtain ⟨k1, r⟩ := x
    have st : w.step tab t (.intoMap i) = .ok (w.run k1) := by
      simp only [World.step, World.onMap, hi, hx, bind, Except.bind, pure, Except.pure]
    have held : (w.run k1).held i = some (.map m) := hi
    simp only [MapMut.intoMapQ, hx, bind, Except.bind, pure, Except.pure]
    cases r with
    | ok m1 =>
      refine ⟨fun m' h => ?_, fun e h => ?_⟩
      · injection h with h
        injection h with h
        rw [st, h]
      · injection h with h; injection h with _ h; cases h
    | error em =>
      obtain ⟨e1, m1⟩ := em
      have hm1 : m1 = m := by
        simp only [MapMut.intoMap, bind, Except.bind, pure, Except.pure] at hx
        split at hx
        · cases hx
        · split at hx
          · injection hx with hx; injection hx with _ hx; cases hx
          · injection hx with hx
            injection hx with _ hx
            injection hx with hx
            injection hx with _ hx
            exact hx.symm
      subst hm1
      dsimp only
      cases hd : m1.drop t k1 with
      | error f =>
        simp only []
        exact ⟨fun _ h => (by cases h), fun _ h => (by cases h)⟩
      | ok k2 =>
        simp only []
        refine ⟨fun m' h => ?_, fun e h => ?_⟩
        · injection h with h; injection h with _ h; cases h
        · injection h with h
          injection h with h
          subst h
          have hd' : m1.drop t (w.run k1).k = .ok k2 := hd
          have sd : (w.run k1).step tab t (.drop i) = .ok { (w.run k1).upd k2 i none with
              empties := if m1.len = 0 then m1 :: w.empties else w.empties } := by
            simp only [World.step, held, bind, Except.bind, pure, Except.pure, hd']
            rfl
          exact ⟨_, _, st, sd, rfl, rfl⟩

/-- Non-vacuity of C99: byte 4200 of a map stored through `&mut *map` is read through `as_ref`. -/
example : ∃ k2, (MapMut.mk 4096005 8000).derefMut.set (demoMap true true ⟨true, true, false⟩) 4200 77 = .ok k2 ∧
    (MapMut.mk 4096005 8000).asRef.get k2 4200 = .ok 77 :=
  C99_coherent (t := ⟨.w64, true⟩) (m := ⟨4096005, 8000⟩) (demoMap_wf true true ⟨true, true, false⟩) (demoMap_maps _ _ _)
    rfl rfl (C99_write _).1 (C99_read _ ⟨⟨0, 0⟩⟩).2.1 (by decide) 77

/-- Non-vacuity of C100: a map of two pages. -/
example : Wf ⟨.w64, true⟩ (demoMap true true ⟨true, true, false⟩) ∧
    Live ⟨.w64, true⟩ (demoMap true true ⟨true, true, false⟩) (Map.mk ⟨4096000, 8192⟩).inner 1000 2 ∧
    ∃ k' m', (Map.mk ⟨4096000, 8192⟩).intoMapMutQ ⟨.w64, true⟩ (demoMap true true ⟨true, true, false⟩) = .ok (k', .ok m') :=
  ⟨demoMap_wf _ _ _, demoMap_live _ _ _ _, _, _, rfl⟩

/-- Non-vacuity of C100, failing: a readable and writable map of the demo file, and a kernel that
refuses `mprotect`: `into_map_mut()?` fails, and page 1000 is unmapped. -/
example : ∃ k', (Map.mk ⟨4096005, 8000⟩).intoMapMutQ ⟨.w64, true⟩
    { demoMap true true ⟨true, true, false⟩ with oracle := fun _ => ⟨false, 13, 0, true⟩ } =
      .ok (k', .error (Error.lastOsError .protect 13)) ∧ k'.pt 1000 = none ∧
    (demoMap true true ⟨true, true, false⟩).pt 1000 ≠ none := by
  refine ⟨_, rfl, by decide +kernel, by decide +kernel⟩

end Vmap
