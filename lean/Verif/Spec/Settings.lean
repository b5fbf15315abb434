import Verif.Spec.World
/-
Specification vocabulary for C117 and C118: which bytes of a map are locked in memory, and whether it
can be written through, in the course of a whole program.
-/
namespace Vmap
open Kernel Spec

/-- The page of address `a` is locked in memory. -/
def Spec.Locked (k : Kernel) (a : Nat) : Prop := ∃ e, k.pt (a / k.page) = some e ∧ e.locked = true

/-- The page of address `a` may be written to. -/
def Spec.Writable (k : Kernel) (a : Nat) : Prop := ∃ e, k.pt (a / k.page) = some e ∧ e.prot.w = true

/-- The program gets from `w` to a later state by any number of steps, each of them `allowed`. -/
inductive Path (tab : SysTable) (t : Target) (allowed : World → Op → Prop) (w : World) :
    World → Prop
  | refl : Path tab t allowed w w
  | step {w1 w2 : World} {op : Op} (before : Path tab t allowed w w1) (sane : op.Sane t w1)
      (good : allowed w1 op) (step : w1.step tab t op = .ok w2) : Path tab t allowed w w2

/-- The program, in state `w`, has just made the map `m`, with access `p`, and holds it as handle `i`. -/
inductive NewMap (tab : SysTable) (t : Target) (k0 : Kernel) : World → Nat → MapMut → Protect → Prop
  | map {w0 : World} {opts : Options} {fd : Nat} {k1 : Kernel} {m : MapMut}
      (reach : Reach tab t k0 w0) (fits : Fits t opts)
      (call : opts.mapIf tab t w0.k fd = .ok (k1, .ok (some m))) :
      NewMap tab t k0 (w0.put k1 (.map m)) w0.next m opts.protect
  | open {w0 : World} {opts : Options} {path : String} {fd : Nat} {k1 : Kernel} {m : MapMut}
      (reach : Reach tab t k0 w0) (fits : Fits t opts)
      (call : opts.openIf tab t w0.k path = .ok (k1, .ok (some m, fd))) :
      NewMap tab t k0 (w0.put k1 (.map m)) w0.next m opts.protect
  | alloc {w0 : World} {opts : Options} {k1 : Kernel} {m : MapMut}
      (reach : Reach tab t k0 w0) (sane : (Op.alloc opts).Sane t w0)
      (call : opts.alloc t w0.k = .ok (k1, .ok m)) :
      NewMap tab t k0 (w0.put k1 (.map m)) w0.next m opts.protect

/-- Access that includes writing (to the file, or to a private copy). -/
def Spec.writes : Protect → Bool
  | .readWrite => true
  | .readCopy => true
  | _ => false

/-- What the calls on a map `m` (handle `i`, made in state `w` with access `p`) say about it: whether it
can be written through (`a`), and which of its bytes are locked (`l`).  `lock_range` and
`unlock_range`, if they succeed, lock and unlock all bytes that share a page with the range; there is no
counting of locks.  `into_map_mut` and `into_map`, if they succeed, make the map writable (`into_map`
too: C43).  Nothing else has an effect, whatever it is called on. -/
inductive Settings (tab : SysTable) (t : Target) (i : Nat) (m : MapMut) (p : Protect) (w : World) :
    World → Bool → (Nat → Prop) → Prop
  | made : Settings tab t i m p w w (writes p) (fun _ => False)
  | lock {w1 : World} {k2 : Kernel} {r : Result Unit} {a : Bool} {l : Nat → Prop} {off len : Nat}
      (before : Settings tab t i m p w w1 a l) (sane : off + len < t.lim)
      (call : m.lockRange t w1.k off len = .ok (k2, r)) :
      Settings tab t i m p w (w1.run k2) a (fun j =>
        l j ∨ (r = .ok () ∧ OnPage w1.k.page (m.ptr + off) len ((m.ptr + j) / w1.k.page)))
  | unlock {w1 : World} {k2 : Kernel} {r : Result Unit} {a : Bool} {l : Nat → Prop} {off len : Nat}
      (before : Settings tab t i m p w w1 a l) (sane : off + len < t.lim)
      (call : m.unlockRange t w1.k off len = .ok (k2, r)) :
      Settings tab t i m p w (w1.run k2) a (fun j =>
        l j ∧ ¬ (r = .ok () ∧ OnPage w1.k.page (m.ptr + off) len ((m.ptr + j) / w1.k.page)))
  | intoMapMut {w1 : World} {k2 : Kernel} {r : ConvertResult MapMut Map} {a : Bool} {l : Nat → Prop}
      (before : Settings tab t i m p w w1 a l)
      (call : (Map.mk m).intoMapMut t w1.k = .ok (k2, r)) :
      Settings tab t i m p w (w1.run k2) (a || r.isOk) l
  | intoMap {w1 : World} {k2 : Kernel} {r : ConvertResult Map MapMut} {a : Bool} {l : Nat → Prop}
      (before : Settings tab t i m p w w1 a l) (call : m.intoMap t w1.k = .ok (k2, r)) :
      Settings tab t i m p w (w1.run k2) (a || r.isOk) l
  | other {w1 w2 : World} {a : Bool} {l : Nat → Prop} {op : Op}
      (before : Settings tab t i m p w w1 a l) (sane : op.Sane t w1)
      (step : w1.step tab t op = .ok w2) (held : w2.held i = some (.map m))
      (h1 : ∀ off len, op ≠ .lock i off len) (h2 : ∀ off len, op ≠ .unlock i off len)
      (h3 : op ≠ .intoMapMut i) (h4 : op ≠ .intoMap i) : Settings tab t i m p w w2 a l

end Vmap
