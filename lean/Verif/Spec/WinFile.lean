import Verif.Model.WinFile
import Verif.Spec.Windows
import Verif.Spec.BigFile
/-
Specification vocabulary for C158: opening files on Windows.
-/
namespace Vmap
namespace Spec

/-- Consistency of a process and the file system: the numbers in use are below the next unused ones,
exactly the existing files have a length, and no file has two names. -/
structure WinFsWf (t : Target) (fs : WinFs) : Prop where
  win : WinWf t fs.win
  names : ∀ p f, fs.names p = some f → f < fs.nextFile
  files : ∀ f, f < fs.nextFile ↔ ∃ n, fs.win.files f = some n
  once : ∀ p q f, fs.names p = some f → fs.names q = some f → p = q
  opened : ∀ h f w, fs.opened h = some (f, w) → f < fs.nextFile ∧ h < fs.nextHandle
  views : ∀ v, v ∈ fs.win.views → ∀ f, v.sec.file = some f → f < fs.nextFile

/-- The file `f` of `l` bytes is what opening `path` finds: the file that is there, empty if it is to be
truncated; or a new empty one.  `create_new` finds only new ones. -/
inductive WinFound (fs : WinFs) (o : OpenOptions) (path : String) : Nat → Nat → Prop
  | there {f l : Nat} (name : fs.names path = some f) (may : o.createNew = false)
      (len : fs.win.files f = some l) : WinFound fs o path f (if o.truncate then 0 else l)
  | new (name : fs.names path = none) (may : o.write = true ∧ (o.create = true ∨ o.createNew = true)) :
      WinFound fs o path fs.nextFile 0

/-- All other paths, and their files, are as they were; and so is every file that has no name. -/
structure WinOthers (fs fs' : WinFs) (path : String) : Prop where
  names : ∀ p, p ≠ path → fs'.names p = fs.names p
  files : ∀ f, f < fs.nextFile → fs.names path ≠ some f →
    fs'.win.files f = fs.win.files f ∧ fs'.win.bytes.file f = fs.win.bytes.file f

/-- Nothing has happened but the call of `CreateFileW`, if any: the same files with the same names,
lengths and bytes, the same open files, the same memory. -/
structure WinFsSame (fs fs' : WinFs) : Prop where
  win : fs'.win = fs.win
  names : fs'.names = fs.names
  opened : fs'.opened = fs.opened

end Spec
end Vmap
