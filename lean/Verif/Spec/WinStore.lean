import Verif.Spec.WinBytes
/-
Specification vocabulary for C138: what of the files is on the disk, on Windows.
-/
namespace Vmap
open Spec

/-- Where the bytes of files are besides in memory: `sent`, what has been handed to the file system and
the drive; `disk`, what is on the medium and survives a crash. -/
structure WinStore where
  sent : Nat → Nat → Byte
  disk : Nat → Nat → Byte

/-- Is byte `n` of file `f` shown by the view, other than copy-on-write, at one of the `l` addresses
from `a` on?  (`l = 0` means: up to the end of the view.) -/
def WinView.flushes (v : WinView) (a l f n : Nat) : Bool :=
  decide (v.sec.file = some f ∧ v.access.copy = false ∧ v.off ≤ n ∧ n < v.off + v.len ∧
    a ≤ v.base + (n - v.off) ∧
    (v.base + (n - v.off) < a + l ∨ (l = 0 ∧ v.base ≤ a ∧ a < v.base + v.len)))

/-- What a successful call does (Windows documentation): `FlushViewOfFile` hands the
bytes of the views in the range to the file system, and returns without waiting for the
medium; `FlushFileBuffers` brings what has been handed over to the medium, for the file it is given
and no other. -/
def WinStore.effect (s : Vmap.Win) (d : WinStore) : WinCall → WinStore
  | .flushViewOfFile a l =>
    { d with sent := fun f n => if s.views.any (fun v => v.flushes a l f n) then s.bytes.file f n else d.sent f n }
  | .flushFileBuffers file =>
    { d with disk := fun f n => if f = file then d.sent f n else d.disk f n }
  | _ => d

/-- The calls in `cs`, the first of which is call number `k` of the process, one after the other; those
that fail have no effect. -/
def WinStore.calls (s : Vmap.Win) : WinStore → Nat → List WinCall → WinStore
  | d, _, [] => d
  | d, k, c :: cs => WinStore.calls s (if (s.oracle k).ok then d.effect s c else d) (k + 1) cs

/-- The effect of the calls that were made between `s` and `s'`. -/
def WinStore.after (d : WinStore) (s s' : Vmap.Win) : WinStore :=
  d.calls s s.tick (s'.log.take (s'.log.length - s.log.length)).reverse

/-- Windows writes back of its own accord: the bytes selected by `f1` to the file system, those
selected by `f2` from there to the medium. -/
def WinStore.writeBack (d : WinStore) (s : Vmap.Win) (f1 f2 : Nat → Nat → Bool) : WinStore :=
  { sent := fun f n => if f1 f n then s.bytes.file f n else d.sent f n
    disk := fun f n => if f2 f n then d.sent f n else d.disk f n }

/-- The program gets from `w` to `w'`, and the disk from `d` to `d'`, by any number of steps and with any
amount of writing back in between; and at every point byte `n` of `file` is `b`. -/
inductive WinUndisturbed (tab : SysTable) (t : Target) (file n : Nat) (b : Byte) (w : WinWorld) (d : WinStore) :
    WinWorld → WinStore → Prop
  | refl (is : w.s.bytes.file file n = b) : WinUndisturbed tab t file n b w d w d
  | step {w1 w2 : WinWorld} {d1 : WinStore} {op : WinOp} (before : WinUndisturbed tab t file n b w d w1 d1)
      (sane : op.Sane t w1) (step : w1.step tab t op = .ok w2) (is : w2.s.bytes.file file n = b) :
      WinUndisturbed tab t file n b w d w2 (d1.after w1.s w2.s)
  | writeBack {w1 : WinWorld} {d1 : WinStore} (f1 f2 : Nat → Nat → Bool)
      (before : WinUndisturbed tab t file n b w d w1 d1) :
      WinUndisturbed tab t file n b w d w1 (d1.writeBack w1.s f1 f2)

end Vmap
