import Verif.Spec.WinWorld
/-
Specification vocabulary for C120–C124: what the bytes of maps are in the course of a whole program on
Windows.
-/
namespace Vmap
open Spec

/-- In state `w` the program holds, as handle `i`, a map `m` that it made at some earlier point with
`map_if`, with access `p`: it shows `file` from byte `off` on. -/
inductive WinFileMap (tab : SysTable) (t : Target) (s0 : Vmap.Win) (w : WinWorld) :
    Nat → MapMut → Nat → Nat → Protect → Prop
  | map {w0 : WinWorld} {opts : Options} {file : Nat} {s1 : Vmap.Win} {m : MapMut}
      (reach : WinReach tab t s0 w0) (fits : Fits t opts)
      (call : w0.s.mapIf tab t opts file = .ok (s1, .ok (some m)))
      (later : WinLater tab t (w0.put s1 (.map m)) w)
      (held : w.held w0.next = some (.map m)) :
      WinFileMap tab t s0 w w0.next m file opts.offset opts.protect

/-- The file is now so short that the page of its byte `n` lies behind its end. -/
def WinCut (s : Vmap.Win) (file n : Nat) : Prop :=
  ∃ len, s.files file = some len ∧ len ≤ n / s.page * s.page

/-- What has become of a copy-on-write map `m` (handle `i`) of `file` from byte `off` on, between its
creation in state `w` and now: `ov j = some b` if the map has byte `j` for itself, with value
`b`; `ov j = none` if it still shows the file's.  A store makes the bytes of the stored byte's page
the map's own, with the values they have at that moment; nothing else has an effect. -/
inductive WinOverlay (tab : SysTable) (t : Target) (i : Nat) (m : MapMut) (file off : Nat)
    (w : WinWorld) : WinWorld → (Nat → Option Byte) → Prop
  | made : WinOverlay tab t i m file off w w (fun _ => none)
  | write {w1 w2 : WinWorld} {ov : Nat → Option Byte} {idx : Nat} {b : Byte}
      (before : WinOverlay tab t i m file off w w1 ov) (step : w1.step tab t (.set i idx b) = .ok w2) :
      WinOverlay tab t i m file off w w2 (fun j =>
        if j = idx then some b
        else if (m.ptr + j) / w1.s.page = (m.ptr + idx) / w1.s.page then
          some ((ov j).getD (w1.s.bytes.file file (off + j)))
        else ov j)
  | other {w1 w2 : WinWorld} {ov : Nat → Option Byte} {op : WinOp}
      (before : WinOverlay tab t i m file off w w1 ov) (sane : op.Sane t w1)
      (step : w1.step tab t op = .ok w2) (held : w2.held i = some (.map m))
      (noset : ∀ idx b, op ≠ .set i idx b) : WinOverlay tab t i m file off w w2 ov

/-- What has become of allocated memory `m` (handle `i`), between its allocation in state `w` and
now: an array of bytes, zero at first, changed by stores; nothing else has an effect. -/
inductive WinCells (tab : SysTable) (t : Target) (i : Nat) (m : MapMut) (w : WinWorld) :
    WinWorld → (Nat → Byte) → Prop
  | made : WinCells tab t i m w w (fun _ => 0)
  | write {w1 w2 : WinWorld} {c : Nat → Byte} {idx : Nat} {b : Byte}
      (before : WinCells tab t i m w w1 c) (step : w1.step tab t (.set i idx b) = .ok w2) :
      WinCells tab t i m w w2 (fun j => if j = idx then b else c j)
  | other {w1 w2 : WinWorld} {c : Nat → Byte} {op : WinOp}
      (before : WinCells tab t i m w w1 c) (sane : op.Sane t w1)
      (step : w1.step tab t op = .ok w2) (held : w2.held i = some (.map m))
      (noset : ∀ idx b, op ≠ .set i idx b) : WinCells tab t i m w w2 c

/-- The program gets from `w` to `w'` by any number of steps, and nobody else leaves `file` shorter than
`n` bytes meanwhile. -/
inductive WinSpared (tab : SysTable) (t : Target) (file n : Nat) (w : WinWorld) : WinWorld → Prop
  | refl : WinSpared tab t file n w w
  | step {w1 w2 : WinWorld} {op : WinOp} (before : WinSpared tab t file n w w1) (sane : op.Sane t w1)
      (step : w1.step tab t op = .ok w2)
      (spared : ∀ f d, op = .files f d → ∀ len, f file = some len → n ≤ len) :
      WinSpared tab t file n w w2

end Vmap
