import Verif.Spec.WinFile
import Verif.Spec.WinWorld
/-
Whole programs on Windows that open files by name: C159 is stated over the states such programs can
reach.
-/
namespace Vmap
open Spec

/-- A running program: the process with its file system, the maps and rings it holds (as in `WinWorld`),
and the `File`s it holds. -/
structure FsWorld where
  fs : WinFs
  held : Nat → Option WinHandle
  next : Nat
  empties : List MapMut
  files : Nat → Bool

/-- What a program can do. -/
inductive FsOp
  /-- `Options::open_if` (`open` differs only in what it returns, and in that the `File` is dropped
  where it returns an error) -/
  | openIf (o : Options) (path : String)
  /-- `Options::map_if` with a `File` the program holds -/
  | mapIf (o : Options) (h : Nat)
  /-- drop a `File` -/
  | close (h : Nat)
  /-- `alloc`, rings, and every call on a map or ring -/
  | use (op : WinOp)
  /-- other processes write to files or resize them -/
  | others (lens : Nat → Option Nat) (d : Nat → Nat → Byte)

namespace FsWorld

/-- The process and what it holds, without the file system. -/
def world (x : FsWorld) : WinWorld := ⟨x.fs.win, x.held, x.next, x.empties⟩

/-- A program that holds nothing yet. -/
def start (fs : WinFs) : FsWorld := ⟨fs, fun _ => none, 0, [], fun _ => false⟩

/-- The process and what it holds become those of `w`. -/
def back (x : FsWorld) (w : WinWorld) : FsWorld :=
  { x with fs := { x.fs with win := w.s }, held := w.held, next := w.next, empties := w.empties }

/-- Only the process with its file system changes. -/
def run (x : FsWorld) (fs : WinFs) : FsWorld := { x with fs := fs }

/-- The program obtains a map, if there is one. -/
def got (x : FsWorld) (fs : WinFs) : Option MapMut → FsWorld
  | some m => { x with fs := fs, held := fun j => if j = x.next then some (.map m) else x.held j, next := x.next + 1 }
  | none => x.run fs

/-- The program obtains a `File`. -/
def file (x : FsWorld) (h : Nat) : FsWorld := { x with files := fun q => if q = h then true else x.files q }

/-- One step of a program.  A call on a `File` the program does not hold does not exist in Rust and does
nothing here. -/
def step (tab : SysTable) (t : Target) (x : FsWorld) : FsOp → Exec FsWorld
  | .openIf o path => do
    match ← x.fs.openIf tab t o path with
    | (fs, .ok (m, h)) => return (x.got fs m).file h
    | (fs, .error _) => return x.run fs
  | .mapIf o h =>
    if x.files h then do
      match ← x.fs.mapIf tab t o h with
      | (fs, .ok m) => return x.got fs m
      | (fs, .error _) => return x.run fs
    else return x
  | .close h =>
    if x.files h then return { x with fs := x.fs.close h, files := fun q => if q = h then false else x.files q }
    else return x
  | .use op =>
    match op with
    | .mapIf _ _ => return x
    | .files _ _ => return x
    | op => do
      let w ← x.world.step tab t op
      return x.back w
  | .others lens d => return x.run { x.fs with win := { x.fs.win with files := lens, bytes := { x.fs.win.bytes with file := d } } }

end FsWorld

/-- The arguments do not overflow; other processes neither create nor delete files. -/
def FsOp.Sane (t : Target) (x : FsWorld) : FsOp → Prop
  | .openIf o _ => Fits t o
  | .mapIf o _ => Fits t o
  | .close _ => True
  | .use op => op.Sane t x.world
  | .others lens _ => ∀ f, (∃ n, lens f = some n) ↔ ∃ n, x.fs.win.files f = some n

/-- The program gets from `x` to `x'` by any number of steps. -/
inductive FsLater (tab : SysTable) (t : Target) (x : FsWorld) : FsWorld → Prop
  | refl : FsLater tab t x x
  | step {x1 x2 : FsWorld} {op : FsOp} (before : FsLater tab t x x1) (sane : op.Sane t x1)
      (step : x1.step tab t op = .ok x2) : FsLater tab t x x2

/-- The states a program can reach from the process `fs`. -/
def FsReach (tab : SysTable) (t : Target) (fs : WinFs) (x : FsWorld) : Prop := FsLater tab t (FsWorld.start fs) x

end Vmap
