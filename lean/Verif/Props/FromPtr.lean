import Verif.Model.FromPtr
import Verif.Model.Span
import Verif.Props.MapMake
/-
C126: a `Map` is what the corresponding `MapMut` is, less the permission to store.
-/
namespace Vmap

/-- What a program can tell of a returned map: address and length, or the error. -/
def seen {α : Type} (f : α → Span) (x : Exec (Kernel × Result α)) : Exec (Kernel × Result Span) :=
  x.map fun y => (y.1, y.2.map f)

/-- The same where there may be no map. -/
def seenIf {α : Type} (f : α → Span) (x : Exec (Kernel × Result (Option α))) :
    Exec (Kernel × Result (Option Span)) :=
  x.map fun y => (y.1, y.2.map (Option.map f))

theorem mapIfAs_eq {α : Type} (make : Nat → Nat → α) (tab : SysTable) (t : Target) (k : Kernel) (o : Options)
    (fd : Nat) : o.mapIfAs make tab t k fd =
      (o.mapIf tab t k fd).map fun y => (y.1, y.2.map (Option.map fun m => make m.ptr m.len)) := by
  simp only [Options.mapIfAs, Options.mapIf]
  rcases File.len tab k fd with ⟨k1, e | n⟩
  · rfl
  dsimp only
  rcases Options.truncateStep tab k1 o fd (asUsize t n) with ⟨k2, e | n⟩
  · rfl
  dsimp only
  rcases Options.resizeStep tab k2 o fd n with ⟨k3, e | n⟩
  · rfl
  simp only [Options.mapStepAs, Options.mapStep, bind, Except.bind, pure, Except.pure]
  split
  · rfl
  rcases subU t n o.offset with e | max
  · rfl
  dsimp only
  rcases Options.mapLen o.len max with _ | len
  · rfl
  dsimp only
  rcases (Size.alloc k3).truncate t o.offset with e | mapoff
  · rfl
  dsimp only
  rcases subU t o.offset mapoff with e | d
  · rfl
  dsimp only
  rcases addU t len d with e | maplen
  · rfl
  dsimp only
  rcases Unix.mapFile t k3 fd mapoff maplen o.protect with ⟨k4, e | ptr⟩ <;> rfl

/-- C126: `Map::with_options()` makes the same maps as `MapMut::with_options()` with the same options:
the same address, length, error and effect, for every way to make one; and the generic functions
for `MapMut` are those of Model/Map.lean. -/
theorem C126_made (tab : SysTable) (t : Target) (k : Kernel) (o : Options) (fd : Nat) (path : String) :
    seenIf Map.span (o.mapIfAs Map.fromPtr tab t k fd) = seenIf MapMut.span (o.mapIf tab t k fd) ∧
    seen Map.span (o.mapAs Map.fromPtr tab t k fd) = seen MapMut.span (o.map tab t k fd) ∧
    ((o.openIfAs Map.fromPtr tab t k path).map fun y => (y.1, y.2.map fun z => (z.1.map Map.span, z.2))) =
      ((o.openIf tab t k path).map fun y => (y.1, y.2.map fun z => (z.1.map MapMut.span, z.2))) ∧
    ((o.openAs Map.fromPtr tab t k path).map fun y => (y.1, y.2.map fun z => (Map.span z.1, z.2))) =
      ((o.open_ tab t k path).map fun y => (y.1, y.2.map fun z => (MapMut.span z.1, z.2))) ∧
    seen Map.span (o.allocAs Map.fromPtr t k) = seen MapMut.span (o.alloc t k) ∧
    o.mapIfAs MapMut.fromPtr tab t k fd = o.mapIf tab t k fd ∧
    o.mapAs MapMut.fromPtr tab t k fd = o.map tab t k fd ∧
    o.openIfAs MapMut.fromPtr tab t k path = o.openIf tab t k path ∧
    o.openAs MapMut.fromPtr tab t k path = o.open_ tab t k path ∧
    o.allocAs MapMut.fromPtr t k = o.alloc t k := by
  have hm : ∀ k fd, o.mapIfAs MapMut.fromPtr tab t k fd = o.mapIf tab t k fd := by
    intro k fd
    rw [mapIfAs_eq]
    rcases o.mapIf tab t k fd with e | ⟨k1, e | _ | m⟩ <;> rfl
  have ha : ∀ k fd, o.mapAs MapMut.fromPtr tab t k fd = o.map tab t k fd := by
    intro k fd
    simp only [Options.mapAs, Options.map, hm]
    rcases o.mapIf tab t k fd with e | ⟨k1, e | _ | m⟩ <;> rfl
  refine ⟨?_, ?_, ?_, ?_, ?_, hm k fd, ha k fd, ?_, ?_, rfl⟩
  · rw [mapIfAs_eq]
    rcases o.mapIf tab t k fd with e | ⟨k1, e | _ | m⟩ <;> rfl
  · simp only [Options.mapAs, Options.map, mapIfAs_eq]
    rcases o.mapIf tab t k fd with e | ⟨k1, e | _ | m⟩ <;> rfl
  · simp only [Options.openIfAs, Options.openIf, mapIfAs_eq]
    rcases o.openOptions.open tab k path with ⟨k1, e | fd⟩
    · rfl
    dsimp only
    rcases o.mapIf tab t k1 fd with e | ⟨k1, e | _ | m⟩ <;> rfl
  · simp only [Options.openAs, Options.open_, Options.mapAs, Options.map, mapIfAs_eq]
    rcases o.openOptions.open tab k path with ⟨k1, e | fd⟩
    · rfl
    dsimp only
    rcases o.mapIf tab t k1 fd with e | ⟨k1, e | _ | m⟩ <;> rfl
  · simp only [Options.allocAs, Options.alloc, bind, Except.bind, pure, Except.pure]
    rcases (Size.page k).offset t o.offset with e | off
    · rfl
    dsimp only
    rcases Options.allocLen t k o.len off with e | len
    · rfl
    dsimp only
    rcases addU t off len with e | n
    · rfl
    dsimp only
    rcases Unix.mapAnon t k n o.protect with ⟨k4, e | ptr⟩ <;> rfl
  · simp only [Options.openIfAs, Options.openIf, hm]
    rcases o.openOptions.open tab k path with ⟨k1, e | fd⟩
    · rfl
    dsimp only
    rcases o.mapIf tab t k1 fd with e | ⟨k1, e | _ | m⟩ <;> rfl
  · simp only [Options.openAs, Options.open_, ha]
    rcases o.openOptions.open tab k path with ⟨k1, e | fd⟩
    · rfl
    dsimp only
    rcases o.map tab t k1 fd with e | ⟨k1, e | m⟩ <;> rfl

/-- C126: on memory at the same address and of the same length a `Map` reads, gives advice, locks,
unlocks and is dropped exactly as a `MapMut`. -/
theorem C126_acts (t : Target) (k : Kernel) (m : Map) (w : MapMut) (same : Map.span m = MapMut.span w) :
    m.bytes k = w.bytes k ∧ (∀ i, m.get k i = w.get k i) ∧
    (∀ a, m.advise t k a = w.advise t k a) ∧ (∀ off len a, m.adviseRange t k off len a = w.adviseRange t k off len a) ∧
    m.lock t k = w.lock t k ∧ (∀ off len, m.lockRange t k off len = w.lockRange t k off len) ∧
    m.unlock t k = w.unlock t k ∧ (∀ off len, m.unlockRange t k off len = w.unlockRange t k off len) ∧
    m.drop t k = w.drop t k := by
  obtain ⟨⟨p, l⟩⟩ := m
  obtain ⟨p', l'⟩ := w
  simp only [Map.span, MapMut.span, Span.mk.injEq] at same
  obtain ⟨rfl, rfl⟩ := same
  exact ⟨rfl, fun _ => rfl, fun _ => rfl, fun _ _ _ => rfl, rfl, fun _ _ => rfl, rfl, fun _ _ => rfl, rfl⟩

/-- C126: converting keeps address and length, whether it succeeds or fails, both ways, and both ask for
the same access. -/
theorem C126_converts (t : Target) (k : Kernel) (m : Map) (w : MapMut) (same : Map.span m = MapMut.span w) :
    (m.intoMapMut t k).map (fun y => (y.1, (y.2.map MapMut.span).mapError fun z => (z.1, Map.span z.2))) =
    (w.intoMap t k).map (fun y => (y.1, (y.2.map Map.span).mapError fun z => (z.1, MapMut.span z.2))) ∧
    ∀ k' r, m.intoMapMut t k = .ok (k', r) →
      (∀ w', r = .ok w' → MapMut.span w' = Map.span m) ∧ ∀ e m', r = .error (e, m') → Map.span m' = Map.span m := by
  obtain ⟨⟨p, l⟩⟩ := m
  obtain ⟨p', l'⟩ := w
  simp only [Map.span, MapMut.span, Span.mk.injEq] at same
  obtain ⟨rfl, rfl⟩ := same
  simp only [Map.intoMapMut, MapMut.intoMap, bind, Except.bind, pure, Except.pure]
  rcases (Size.page k).bounds t p l with e | ⟨a, n⟩
  · exact ⟨rfl, fun k' r h => by cases h⟩
  dsimp only
  rcases Unix.protect k a n .readWrite with ⟨k1, e | u⟩
  · refine ⟨rfl, fun k' r h => ?_⟩
    cases h
    exact ⟨fun w' h => (by cases h), fun e m' h => (by cases h; rfl)⟩
  · refine ⟨rfl, fun k' r h => ?_⟩
    cases h
    exact ⟨fun w' h => (by cases h; rfl), fun e m' h => (by cases h)⟩

/-- A `Map` of bytes 5000 to 7999 of the demo file. -/
example (tab : SysTable) :
    ∃ k' m, ((Options.new.setOffset 5000).setLen (.exact 3000)).mapIfAs Map.fromPtr tab ⟨.w64, true⟩ (demo 0) 3 =
      .ok (k', .ok (some m)) ∧ m.span = ⟨8192904, 3000⟩ ∧ m.get k' 7 = .ok (UInt8.ofNat (5007 % 251)) ∧
      m.get k' 3000 = .error .panic :=
  ⟨_, _, rfl, rfl, rfl, rfl⟩

end Vmap
