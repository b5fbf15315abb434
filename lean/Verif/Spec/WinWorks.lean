import Verif.Spec.WinFile
import Verif.Spec.Works
/-
Specification vocabulary for C133 on Windows, files by name.
-/
namespace Vmap
namespace Spec

/-- Windows fails no opening of a file on its own account, and the file can be opened with these options
and has `old` bytes then: what creates or truncates asks for write access, and the name is there or is
made.  A file that is to be emptied has no views. -/
structure WinOpenable (fs : WinFs) (o : Options) (path : String) (old : Nat) : Prop where
  ok : ∀ i, (fs.asks i).ok = true
  access : o.openOptions.truncate = true ∨ o.openOptions.create = true ∨
    o.openOptions.createNew = true → o.openOptions.write = true
  found : (∃ f l, fs.names path = some f ∧ fs.win.files f = some l ∧ o.openOptions.createNew = false ∧
      old = if o.openOptions.truncate then 0 else l) ∨
    (fs.names path = none ∧ (o.openOptions.create = true ∨ o.openOptions.createNew = true) ∧ old = 0)

/-- A file of `old` bytes that was opened with these options can be mapped with them at all: it was opened
for writing if stores go to it or its length is to change; no view is in the way of changing its length;
the length it is given is below `2 ^ 63`; and if the range is inside the file, some byte is to be mapped
or the offset is inside a granule. -/
structure WinNamed (fs : WinFs) (o : Options) (path : String) (old : Nat) : Prop where
  store : o.protect = .readWrite → o.openOptions.write = true
  change : o.truncate = true ∨ o.openOptions.truncate = true ∨ o.resize ≠ .endOf → o.openOptions.write = true ∧
    ∀ f, fs.names path = some f → ∀ v, v ∈ fs.win.views → v.sec.file ≠ some f
  length : named o.resize < 2 ^ 63
  some : InRange (newLen o.truncate o.resize old) o.offset o.len →
    0 < wanted (newLen o.truncate o.resize old) o.offset o.len + o.offset % fs.win.gran

end Spec
end Vmap
