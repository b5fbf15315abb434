import Verif.Model.Map
/-
Specification vocabulary for C51: a sequence of builder calls and the value each option was
last given.
-/
namespace Vmap

/-- A call of one of the builder methods of `Options` (src/map.rs:555-1033). -/
inductive Setting
  | write | copy
  | create (b : Bool) | createNew (b : Bool) | truncate (b : Bool)
  | offset (n : Nat) | len (e : Extent) | resize (e : Extent)

/-- Making the call. -/
def Setting.apply (o : Options) : Setting → Options
  | .write => o.write
  | .copy => o.copy
  | .create b => o.create b
  | .createNew b => o.createNew b
  | .truncate b => o.setTruncate b
  | .offset n => o.setOffset n
  | .len e => o.setLen e
  | .resize e => o.setResize e

/-- Making a sequence of calls. -/
def Options.build (o : Options) (l : List Setting) : Options := l.foldl Setting.apply o

namespace Spec

/-- The value the last call that `f` recognises gave. -/
def last {α : Type} (f : Setting → Option α) : List Setting → Option α
  | [] => none
  | c :: l => (last f l).or (f c)

/-- `write()` is `true`, `copy()` is `false`. -/
def access : Setting → Option Bool
  | .write => some true
  | .copy => some false
  | _ => none
def creates : Setting → Option Bool
  | .create b => some b
  | _ => none
def createsNew : Setting → Option Bool
  | .createNew b => some b
  | _ => none
def truncates : Setting → Option Bool
  | .truncate b => some b
  | _ => none
def offsets : Setting → Option Nat
  | .offset n => some n
  | _ => none
def lens : Setting → Option Extent
  | .len e => some e
  | _ => none
def resizes : Setting → Option Extent
  | .resize e => some e
  | _ => none

end Spec
end Vmap
