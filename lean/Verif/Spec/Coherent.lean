import Verif.Spec.World
/-
Specification vocabulary for C95–C98: what a map shows in the course of a whole program.
-/
namespace Vmap
open Kernel Spec

/-- What has become of a private map `m` (handle `i`) of object `o` from byte `off` on, between
its creation in state `w` and now: `ov j = some b` if the map has byte `j` for itself, with value
`b`; `ov j = none` if it still shows the file's.  A store makes the bytes of the stored byte's page
the map's own, with the values they have at that moment; a successful `advise_range` with
`Advise::WillNotNeed` gives up the pages of its range; nothing else has an effect.  (A step that
shortens the file is left out: what then becomes of private pages beyond the new end is up to
the operating system.) -/
inductive Overlay (tab : SysTable) (t : Target) (i : Nat) (m : MapMut) (o : Obj) (off : Nat)
    (w : World) : World → (Nat → Option Byte) → Prop
  | made : Overlay tab t i m o off w w (fun _ => none)
  | write {w1 w2 : World} {ov : Nat → Option Byte} {idx : Nat} {b : Byte}
      (before : Overlay tab t i m o off w w1 ov) (step : w1.step tab t (.set i idx b) = .ok w2) :
      Overlay tab t i m o off w w2 (fun j =>
        if j = idx then some b
        else if (m.ptr + j) / w1.k.page = (m.ptr + idx) / w1.k.page then
          some ((ov j).getD (w1.k.data o (off + j)))
        else ov j)
  | forget {w1 : World} {k2 : Kernel} {ov ov' : Nat → Option Byte} {a l : Nat}
      (before : Overlay tab t i m o off w w1 ov) (sane : a + l < t.lim)
      (call : m.adviseRange t w1.k a l .willNotNeed = .ok (k2, .ok ()))
      (dropped : ∀ j, OnPage w1.k.page (m.ptr + a) l ((m.ptr + j) / w1.k.page) → ov' j = none)
      (kept : ∀ j, ¬ OnPage w1.k.page (m.ptr + a) l ((m.ptr + j) / w1.k.page) → ov' j = ov j) :
      Overlay tab t i m o off w (w1.run k2) ov'
  | refused {w1 : World} {k2 : Kernel} {err : Error} {ov : Nat → Option Byte} {a l : Nat}
      (before : Overlay tab t i m o off w w1 ov) (sane : a + l < t.lim)
      (call : m.adviseRange t w1.k a l .willNotNeed = .ok (k2, .error err)) :
      Overlay tab t i m o off w (w1.run k2) ov
  | other {w1 w2 : World} {ov : Nat → Option Byte} {op : Op}
      (before : Overlay tab t i m o off w w1 ov) (sane : op.Sane t w1)
      (step : w1.step tab t op = .ok w2) (held : w2.held i = some (.map m))
      (noset : ∀ idx b, op ≠ .set i idx b) (noadv : ∀ a l, op ≠ .advise i a l .willNotNeed)
      (grows : w1.k.size o ≤ w2.k.size o) : Overlay tab t i m o off w w2 ov

/-- In state `w` the program holds, as handle `i`, a map `m` that it made at some earlier point, with
`map_if` on an open file or with `open_if`, with access `p`: it shows the file `o` from byte `off`
on. -/
inductive FileMap (tab : SysTable) (t : Target) (k0 : Kernel) (w : World) :
    Nat → MapMut → Obj → Nat → Protect → Prop
  | map {w0 : World} {opts : Options} {fd : Nat} {f : Fd} {k1 : Kernel} {m : MapMut}
      (reach : Reach tab t k0 w0) (fits : Fits t opts) (file : w0.k.fds fd = some f)
      (call : opts.mapIf tab t w0.k fd = .ok (k1, .ok (some m)))
      (later : Later tab t (fun _ => True) (w0.put k1 (.map m)) w)
      (held : w.held w0.next = some (.map m)) :
      FileMap tab t k0 w w0.next m f.obj opts.offset opts.protect
  | open {w0 : World} {opts : Options} {path : String} {fd : Nat} {f : Fd} {k1 : Kernel} {m : MapMut}
      (reach : Reach tab t k0 w0) (fits : Fits t opts)
      (call : opts.openIf tab t w0.k path = .ok (k1, .ok (some m, fd)))
      (file : k1.fds fd = some f)
      (later : Later tab t (fun _ => True) (w0.put k1 (.map m)) w)
      (held : w.held w0.next = some (.map m)) :
      FileMap tab t k0 w w0.next m f.obj opts.offset opts.protect

/-- What has become of allocated memory `m` (handle `i`), between its allocation in state `w` and
now: an array of bytes, zero at first, changed by stores; if `priv`, a successful `advise_range`
with `Advise::WillNotNeed` makes the bytes of the pages of its range zero again; nothing else has
an effect. -/
inductive Cells (tab : SysTable) (t : Target) (i : Nat) (m : MapMut) (priv : Bool)
    (w : World) : World → (Nat → Byte) → Prop
  | made : Cells tab t i m priv w w (fun _ => 0)
  | write {w1 w2 : World} {c : Nat → Byte} {idx : Nat} {b : Byte}
      (before : Cells tab t i m priv w w1 c) (step : w1.step tab t (.set i idx b) = .ok w2) :
      Cells tab t i m priv w w2 (fun j => if j = idx then b else c j)
  | forget {w1 : World} {k2 : Kernel} {c c' : Nat → Byte} {a l : Nat}
      (before : Cells tab t i m priv w w1 c) (sane : a + l < t.lim)
      (call : m.adviseRange t w1.k a l .willNotNeed = .ok (k2, .ok ()))
      (dropped : ∀ j, OnPage w1.k.page (m.ptr + a) l ((m.ptr + j) / w1.k.page) →
        c' j = if priv then 0 else c j)
      (kept : ∀ j, ¬ OnPage w1.k.page (m.ptr + a) l ((m.ptr + j) / w1.k.page) → c' j = c j) :
      Cells tab t i m priv w (w1.run k2) c'
  | refused {w1 : World} {k2 : Kernel} {err : Error} {c : Nat → Byte} {a l : Nat}
      (before : Cells tab t i m priv w w1 c) (sane : a + l < t.lim)
      (call : m.adviseRange t w1.k a l .willNotNeed = .ok (k2, .error err)) :
      Cells tab t i m priv w (w1.run k2) c
  | other {w1 w2 : World} {c : Nat → Byte} {op : Op}
      (before : Cells tab t i m priv w w1 c) (sane : op.Sane t w1)
      (step : w1.step tab t op = .ok w2) (held : w2.held i = some (.map m))
      (noset : ∀ idx b, op ≠ .set i idx b) (noadv : ∀ a l, op ≠ .advise i a l .willNotNeed) :
      Cells tab t i m priv w w2 c

end Vmap
