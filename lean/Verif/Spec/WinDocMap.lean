import Verif.Spec.WinFile
import Verif.Spec.Works
import Verif.Spec.Platform
import Verif.Model.WinDocMap
/-
Specification vocabulary for C160: the examples in the documentation of maps, on Windows.
-/
namespace Vmap
namespace Spec

/-- The program comes to its end without a failed assertion, panic or memory fault, unless Windows
reports an error (which the program then returns). -/
def WinFine (x : Exec (WinFs × Result Unit)) : Prop :=
  ∃ k r, x = .ok (k, r) ∧ ∀ e, r = .error e → ∃ n, e.rawOsError = some n

/-- The program comes to its end with `Ok(())`. -/
def WinDone (x : Exec (WinFs × Result Unit)) : Prop := ∃ k, x = .ok (k, .ok ())

/-- Windows fails no call on its own account. -/
structure WinAgrees (k : WinFs) : Prop where
  ok : ∀ i, (k.win.oracle i).ok = true
  asks : ∀ i, (k.asks i).ok = true

/-- The file `f` has exactly the bytes `text`. -/
structure WinText (s : Vmap.Win) (f : Nat) (text : List Byte) : Prop where
  size : s.files f = some text.length
  data : ∀ i, i < text.length → s.bytes.file f i = text.getD i 0

/-- There is a file `path` with exactly the bytes `text`. -/
def WinFileHas (k : WinFs) (path : String) (text : List Byte) : Prop :=
  ∃ f, k.names path = some f ∧ WinText k.win f text

/-- The process and the file system are consistent, and the views lie where Windows puts them. -/
structure WinGood (t : Target) (k : WinFs) : Prop where
  wf : WinFsWf t k
  laid : WinLaid t k.win

/-- A system for the examples: a file "data" (number 0) with this text, no file "new", and every call
succeeds except those whose numbers are in `bad`. -/
def winDir (bad : List Nat) (text : List Byte) : WinFs where
  win := {
    page := 4096
    gran := 65536
    files := fun f => if f = 0 then some text.length else none
    views := []
    reserved := []
    handles := fun _ => none
    next := 1
    tick := 0
    oracle := fun n => ⟨!bad.contains n, 5, 67108864 + n * 1048576⟩
    log := []
    bytes := ⟨fun f i => if f = 0 then text.getD i 0 else 9, fun _ _ => 1, fun _ _ => some 2⟩
    locked := fun _ => false }
  names := fun p => if p = "data" then some 0 else none
  opened := fun _ => none
  nextHandle := 3
  nextFile := 1
  asks := fun _ => ⟨true, 0, 0⟩
  asked := []

theorem winDir_good (bad : List Nat) (text : List Byte) : WinGood ⟨.w64, true⟩ (winDir bad text) := by
  refine ⟨⟨⟨⟨12, 16, rfl, rfl, by decide, by decide⟩, fun _ h => (nomatch h), fun _ h => (nomatch h),
      fun _ _ h => (nomatch h)⟩,
    fun p f h => ?_, fun f => ?_, fun p q f h1 h2 => ?_, fun _ _ _ h => (nomatch h), fun _ h => (nomatch h)⟩,
    ⟨⟨12, 16, rfl, rfl, by decide, by decide⟩, fun _ h => (nomatch h), .nil⟩⟩
  · simp only [winDir] at h ⊢; split at h <;> cases h; omega
  · simp only [winDir]
    constructor
    · intro h; exact ⟨text.length, if_pos (by omega)⟩
    · rintro ⟨n, h⟩; split at h
      · omega
      · cases h
  · simp only [winDir] at h1 h2
    split at h1
    · split at h2
      · simp_all
      · cases h2
    · cases h1

theorem winDir_has (bad : List Nat) (text : List Byte) : WinFileHas (winDir bad text) "data" text :=
  ⟨0, rfl, rfl, fun _ _ => rfl⟩

theorem winDir_new (bad : List Nat) (text : List Byte) : (winDir bad text).names "new" = none := rfl

/-- The same system, where every call succeeds and views go to address 67108864. -/
def winKindDir (text : List Byte) : WinFs :=
  { winDir [] text with
    win := { (winDir [] text).win with oracle := fun _ => ⟨true, 0, 67108864⟩ }
    opened := fun h => if h = 2 then some (0, true) else none }

theorem winKindDir_good (text : List Byte) : WinGood ⟨.w64, true⟩ (winKindDir text) :=
  have h := winDir_good [] text
  ⟨⟨⟨h.wf.win.sizes, h.wf.win.views, h.wf.win.reserved, h.wf.win.handles⟩, h.wf.names, h.wf.files, h.wf.once,
      (fun q f w hq => by
        simp only [winKindDir] at hq
        split at hq
        · cases hq; simp only [winKindDir, winDir]; omega
        · cases hq), h.wf.views⟩,
    ⟨h.laid.sizes, h.laid.inside, h.laid.apart⟩⟩

theorem winKindDir_has (text : List Byte) : WinFileHas (winKindDir text) "data" text := ⟨0, rfl, rfl, fun _ _ => rfl⟩

theorem winKindDir_willing (text : List Byte) : WinWilling ⟨.w64, true⟩ (winKindDir text).win 67108864 262144 :=
  ⟨fun _ => rfl, fun _ => rfl, ⟨1024, (by decide : 67108864 = 65536 * 1024)⟩,
    (by decide : 67108864 + (262144 + 4096 - 1) / 4096 * 4096 < 2 ^ 64), by decide, fun _ h => (nomatch h), fun _ h => (nomatch h)⟩

theorem winKindDir_agrees (text : List Byte) : WinAgrees (winKindDir text) := ⟨fun _ => rfl, fun _ => rfl⟩

/-- Whether a program came to its end with `Ok(())`, for the examples. -/
def winEnded (x : Exec (WinFs × Result Unit)) : Bool :=
  match x with
  | .ok (_, .ok ()) => true
  | _ => false

end Spec
end Vmap
