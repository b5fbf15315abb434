import Verif.Spec.Map
import Verif.Spec.Demo
/-
Specification vocabulary for C157: the examples in the documentation of maps.
-/
namespace Vmap
namespace Spec

/-- The program comes to its end without a failed assertion, panic or memory fault, unless the
operating system reports an error (which the program then returns). -/
def Fine (x : Exec (Kernel × Result Unit)) : Prop :=
  ∃ k r, x = .ok (k, r) ∧ ∀ e, r = .error e → ∃ n, e.rawOsError = some n

/-- The program comes to its end with `Ok(())`. -/
def Good (x : Exec (Kernel × Result Unit)) : Prop := ∃ k, x = .ok (k, .ok ())

/-- The object `x` has exactly the bytes `text`. -/
structure Text (k : Kernel) (x : Obj) (text : List Byte) : Prop where
  size : k.size x = text.length
  data : ∀ i, i < text.length → k.data x i = text.getD i 0

/-- There is a file `path` with exactly the bytes `text`. -/
def FileHas (k : Kernel) (path : String) (text : List Byte) : Prop :=
  ∃ x, k.names path = some x ∧ Text k x text

/-- The kernel never fails a call on its own account, and to whoever asks for memory it offers the `n`
pages from page `p` on, which are free, inside the address space and not at address zero. -/
structure Grants (t : Target) (k : Kernel) (p n : Nat) : Prop where
  ok : ∀ i, (k.oracle i).ok = true
  place : ∀ i, (k.oracle i).page = p
  free : ∀ q, p ≤ q → q < p + n → k.pt q = none
  top : (p + n) * k.page < t.lim
  bottom : p ≠ 0

/-- A system for the examples: a file "data" with this text, no file "new", and every call succeeds. -/
def docDir (text : List Byte) : Kernel :=
  { demo 0 with
    data := fun o i => if o = 0 then text.getD i 0 else 0
    size := fun o => if o = 0 then text.length else 0 }

theorem docDir_wf {t : Target} (text : List Byte) : Kernel.Wf t (docDir text) where
  page := (demo_wf 0).page
  addr := fun p e h => by cases h
  objs := fun p e h => by cases h
  fds := (demo_wf 0 (t := t)).fds
  names := (demo_wf 0 (t := t)).names
  excl := fun p e c h => by cases h
  shared := fun p e h => by cases h

theorem docDir_has (text : List Byte) : FileHas (docDir text) "data" text :=
  ⟨0, rfl, rfl, fun _ _ => rfl⟩

theorem docDir_new (text : List Byte) : (docDir text).names "new" = none := rfl

/-- The same, with memory always at page 1000. -/
def docKind (text : List Byte) : Kernel :=
  { docDir text with oracle := fun _ => ⟨true, 0, 1000, false⟩ }

theorem docKind_wf {t : Target} (text : List Byte) : Kernel.Wf t (docKind text) where
  page := (demo_wf 0).page
  addr := fun p e h => by cases h
  objs := fun p e h => by cases h
  fds := (demo_wf 0 (t := t)).fds
  names := (demo_wf 0 (t := t)).names
  excl := fun p e c h => by cases h
  shared := fun p e h => by cases h

theorem docKind_has (text : List Byte) : FileHas (docKind text) "data" text :=
  ⟨0, rfl, rfl, fun _ _ => rfl⟩

theorem docKind_grants (text : List Byte) : Grants ⟨.w64, true⟩ (docKind text) 1000 1 :=
  ⟨fun _ => rfl, fun _ => rfl, fun _ _ _ => rfl, by show 1001 * 4096 < 2 ^ 64; decide, by decide⟩

/-- A table of kinds and messages for the examples. -/
def docTab : SysTable := ⟨fun _ => .other 0, fun _ => ""⟩

/-- Whether a program came to its end with `Ok(())`, for the examples. -/
def ended (x : Exec (Kernel × Result Unit)) : Bool :=
  match x with
  | .ok (_, .ok ()) => true
  | _ => false

end Spec
end Vmap
