import Verif.Spec.World
/-
Specification vocabulary for C119: which files a program has open.
-/
namespace Vmap
open Kernel Spec

/-- The files a program has open in state `w`, counted by its own calls: those it began with, and one
for every successful `open_if`, less those it dropped.  Making, using and dropping maps and rings, and
`open_if` that fails, do not count. -/
inductive Ledger (tab : SysTable) (t : Target) (k0 : Kernel) : World → (Nat → Option Fd) → Prop
  | start : Ledger tab t k0 (World.start k0) k0.fds
  | opened {w w' : World} {F : Nat → Option Fd} {o : Options} {path : String} {k1 : Kernel}
      {x : Option MapMut} {fd : Nat} {f : Fd} (before : Ledger tab t k0 w F) (fits : Fits t o)
      (call : o.openIf tab t w.k path = .ok (k1, .ok (x, fd)))
      (step : w.step tab t (.openIf o path) = .ok w')
      (file : k1.names path = some f.obj) (read : f.canRead = true)
      (write : f.canWrite = o.openOptions.write) :
      Ledger tab t k0 w' (fun d => if d = fd then some f else F d)
  | closed {w w' : World} {F : Nat → Option Fd} {fd : Nat} (before : Ledger tab t k0 w F)
      (step : w.step tab t (.close fd) = .ok w') :
      Ledger tab t k0 w' (fun d => if d = fd then none else F d)
  | failed {w w' : World} {F : Nat → Option Fd} {o : Options} {path : String} {k1 : Kernel}
      {err : Error} (before : Ledger tab t k0 w F) (fits : Fits t o)
      (call : o.openIf tab t w.k path = .ok (k1, .error err))
      (step : w.step tab t (.openIf o path) = .ok w') : Ledger tab t k0 w' F
  | other {w w' : World} {F : Nat → Option Fd} {op : Op} (before : Ledger tab t k0 w F)
      (sane : op.Sane t w) (step : w.step tab t op = .ok w') (noopen : ∀ o path, op ≠ .openIf o path)
      (noclose : ∀ fd, op ≠ .close fd) : Ledger tab t k0 w' F

end Vmap
