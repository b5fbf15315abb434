import Verif.Model.Platform
/-
What `fork` makes of the memory of a macOS task.

ENVIRONMENT MODEL (trusted base): nothing here is code of /repo; it writes down what the inheritance
given to `vm_allocate` (the default, a copy) and `vm_map` (`VM_INHERIT_NONE`, src/os/unix/mach.rs:121)
means.
-/
namespace Vmap

/-- The task of a child process.  Every inherited page is a copy of its own; pages not inherited are
unmapped; port rights are not inherited.  (The copies get object numbers by page, from the
parent's first unused one on; `t.lim` bounds the page numbers.)  Environment of
src/os/unix/mach.rs:79-131. -/
def Mach.child (t : Target) (s : Mach) : Mach :=
  { s with
    pt := fun q => if s.heir q then (s.pt q).map fun e => (s.fresh + q, e.2) else none
    ports := fun _ => none
    fresh := s.fresh + t.lim }

end Vmap
