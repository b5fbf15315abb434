/-
The words of a variant's name, and the phrase that an error message says for it.
-/
namespace Vmap.Spec

/-- The words of a name in CamelCase, in lower case: `MapFileView` is `map`, `file`, `view`. -/
def camel : List Char → List (List Char)
  | [] => []
  | c :: cs =>
    match cs, camel cs with
    | d :: _, w :: ws => if d.isUpper then [c.toLower] :: w :: ws else (c.toLower :: w) :: ws
    | _, ws => [c.toLower] :: ws

/-- What follows "failed to" for a name of these words: mapping and unmapping are said as they are
named, the calls on a mapping say that it is mapped memory, a ring is allocated or deallocated as a
whole and mapped in halves. -/
def phrase : List String → Option String
  | ["none"] => none
  | "map" :: what => some (String.intercalate " " ("map" :: what))
  | ["unmap"] => some "unmap"
  | ["ring", "entry"] => some "make ring memory entry"
  | ["ring", "primary"] => some "map ring first half"
  | ["ring", "secondary"] => some "map ring second half"
  | ["ring", verb] => some (verb ++ " full ring")
  | ["memory", "fd"] => some "open memory fd"
  | [verb] => some (verb ++ " mapped memory")
  | _ => none

end Vmap.Spec
