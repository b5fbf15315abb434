import Verif.Spec.WinWorld
import Verif.Spec.World
/-
Specification vocabulary for C145 and C146: which bytes of a map are locked in memory in the course of a
whole program on Windows, and when a map can be converted.
-/
namespace Vmap
open Spec

/-- The page of address `a` is locked in memory. -/
def Spec.WinLocked (s : Vmap.Win) (a : Nat) : Prop := s.locked (a / s.page) = true

/-- Only pages of views are locked. -/
def Spec.WinLocksIn (s : Vmap.Win) : Prop :=
  ∀ a, WinLocked s a → ∃ v, v ∈ s.views ∧ WinPageOf s.page v a

/-- The program, in state `w`, has just made the map `m`, with access `p`, and holds it as handle `i`. -/
inductive WinNewMap (tab : SysTable) (t : Target) (s0 : Vmap.Win) : WinWorld → Nat → MapMut → Protect → Prop
  | map {w0 : WinWorld} {opts : Options} {file : Nat} {s1 : Vmap.Win} {m : MapMut}
      (reach : WinReach tab t s0 w0) (fits : Fits t opts)
      (call : w0.s.mapIf tab t opts file = .ok (s1, .ok (some m))) :
      WinNewMap tab t s0 (w0.put s1 (.map m)) w0.next m opts.protect
  | alloc {w0 : WinWorld} {opts : Options} {s1 : Vmap.Win} {m : MapMut}
      (reach : WinReach tab t s0 w0) (fits : WinAllocFits t w0.s.gran (opts.offset % w0.s.page) opts.len)
      (call : w0.s.alloc t opts = .ok (s1, .ok m)) :
      WinNewMap tab t s0 (w0.put s1 (.map m)) w0.next m opts.protect

/-- The range of a lock or unlock call does not overflow.  (In builds without overflow checks, ranges that
do can be pages before the map: C108.) -/
def WinOp.NoWrap (t : Target) : WinOp → Prop
  | .lock _ off len => off + len < t.lim
  | .unlock _ off len => off + len < t.lim
  | _ => True

/-- What the calls on a map `m` (handle `i`, made in state `w`) say about which of its bytes are
locked (`l`).  `lock_range` and `unlock_range`, if they succeed, lock and unlock all bytes that share a
page with the range; there is no counting of locks.  Nothing else has an effect, whatever it is
called on. -/
inductive WinSettings (tab : SysTable) (t : Target) (i : Nat) (m : MapMut) (w : WinWorld) :
    WinWorld → (Nat → Prop) → Prop
  | made : WinSettings tab t i m w w (fun _ => False)
  | lock {w1 : WinWorld} {s2 : Vmap.Win} {r : Result Unit} {l : Nat → Prop} {off len : Nat}
      (before : WinSettings tab t i m w w1 l) (sane : off + len < t.lim)
      (call : w1.s.lockRange t m off len = .ok (s2, r)) :
      WinSettings tab t i m w (w1.run s2) (fun j =>
        l j ∨ (r = .ok () ∧ OnPage w1.s.page (m.ptr + off) len ((m.ptr + j) / w1.s.page)))
  | unlock {w1 : WinWorld} {s2 : Vmap.Win} {r : Result Unit} {l : Nat → Prop} {off len : Nat}
      (before : WinSettings tab t i m w w1 l) (sane : off + len < t.lim)
      (call : w1.s.unlockRange t m off len = .ok (s2, r)) :
      WinSettings tab t i m w (w1.run s2) (fun j =>
        l j ∧ ¬ (r = .ok () ∧ OnPage w1.s.page (m.ptr + off) len ((m.ptr + j) / w1.s.page)))
  | other {w1 w2 : WinWorld} {l : Nat → Prop} {op : WinOp}
      (before : WinSettings tab t i m w w1 l) (sane : op.Sane t w1) (sane' : op.NoWrap t)
      (step : w1.step tab t op = .ok w2) (held : w2.held i = some (.map m))
      (h1 : ∀ off len, op ≠ .lock i off len) (h2 : ∀ off len, op ≠ .unlock i off len) :
      WinSettings tab t i m w w2 l

end Vmap
