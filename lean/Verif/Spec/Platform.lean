import Verif.Model.Platform
import Verif.Spec.RingAt
import Verif.Spec.Windows
import Verif.Spec.Mach
/-
The memory of a Windows process and of a macOS task, as a machine memory (`Kernel`) in which ring
operations run: what the addresses of each view show.
-/
namespace Vmap
namespace Spec
open Kernel

/-- `k` is a possible memory of the process `s`, with section number `i` as object `obj i`: an address
inside a view shows the byte of the section that the view says, readable, writable if the view
may write, writes going to the section itself unless the view is copy-on-write; and sections are
shown nowhere but in their views.  (All other memory of the process is arbitrary.) -/
structure WinMem (s : Vmap.Win) (k : Kernel) (obj : Nat → Obj) : Prop where
  page : k.page = s.page
  inj : ∀ i j, obj i = obj j → i = j
  view : ∀ v, v ∈ s.views → ∀ a, v.base ≤ a → a < v.base + v.len →
    ∃ e, k.pt (a / k.page) = some e ∧ e.obj = obj v.sec.id ∧
      e.idx * k.page + a % k.page = v.off + (a - v.base) ∧ k.backed e = true ∧ e.prot.r = true ∧
      (e.prot.w = true ↔ v.access.write = true ∨ v.access.copy = true) ∧
      (e.shared = true ↔ v.access.copy = false) ∧ (e.shared = true → e.copy = none)
  only : ∀ q e i, k.pt q = some e → (e.obj = obj i ∨ e.copy = some (obj i)) →
    ∃ v, v ∈ s.views ∧ v.sec.id = i ∧ v.base ≤ q * k.page ∧ q * k.page < v.base + v.len

/-- `k` is a possible memory of the task `s`, with Mach object number `i` as object `obj i`: a page that
shows page `j` of object `i` does so in `k`; objects are shown nowhere else; and the objects from
number `since` on have `VM_PROT_DEFAULT` (read and write) and are not copy-on-write. -/
structure MachMem (s : Mach) (k : Kernel) (obj : Nat → Obj) (since : Nat) : Prop where
  page : k.page = s.page
  inj : ∀ i j, obj i = obj j → i = j
  entry : ∀ q i j, s.pt q = some (i, j) → since ≤ i →
    ∃ e, k.pt q = some e ∧ e.obj = obj i ∧ e.idx = j ∧ k.backed e = true ∧ e.prot.r = true ∧
      e.prot.w = true ∧ e.shared = true ∧ e.copy = none
  only : ∀ q e i, k.pt q = some e → (e.obj = obj i ∨ e.copy = some (obj i)) →
    ∃ j, s.pt q = some (i, j)

/-- The views of a process do not overlap (page by page), begin at and show from a multiple of the
granularity, and lie inside the address space, page zero excluded. -/
structure WinLaid (t : Target) (s : Vmap.Win) : Prop where
  sizes : ∃ a b, s.page = 2 ^ a ∧ s.gran = 2 ^ b ∧ a ≤ b ∧ b + 1 < t.width.bits
  inside : ∀ v, v ∈ s.views → 0 < v.len ∧ v.base ≠ 0 ∧ s.gran ∣ v.base ∧ s.gran ∣ v.off ∧
    v.base + s.roundPage v.len < t.lim
  apart : s.views.Pairwise fun v w =>
    v.base + s.roundPage v.len ≤ w.base ∨ w.base + s.roundPage w.len ≤ v.base

/-- The pages of a task lie inside the address space, page zero excluded, and show pages at offsets
that an address can express. -/
structure MachLaid (t : Target) (s : Mach) : Prop where
  page : ∃ a, s.page = 2 ^ a ∧ a + 2 ≤ t.width.bits
  inside : ∀ q i j, s.pt q = some (i, j) → 0 < q ∧ (q + 1) * s.page < t.lim ∧ j * s.page < t.lim

end Spec
end Vmap
