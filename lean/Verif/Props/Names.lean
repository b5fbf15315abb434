import Verif.Spec.Names
import Verif.Props.Text
/-
C69: what an error says of its operation, from the name of the operation.
-/
namespace Vmap
open Spec

/-- C69: the text of an operation is the phrase for the words of its name (as `{:?}` prints it). -/
theorem C69_words (op : Operation) :
    op.asStr = phrase ((camel op.debug.toList).map String.ofList) := by
  cases op <;> decide

/-- C69: so an error with an operation says `failed to`, that phrase and the cause. -/
theorem C69_says (tab : SysTable) (g : Origin) (s : String)
    (h : phrase ((camel g.op.debug.toList).map String.ofList) = some s) :
    g.error.display tab = "failed to " ++ s ++ ", " ++ g.cause tab :=
  (C69_display tab g).1 s ((C69_words g.op).trans h)

example (tab : SysTable) : (Error.input .mapAnonymousView .invalidRange).display tab =
    "failed to map anonymous view, invalid range" :=
  C69_says tab (.input .mapAnonymousView .invalidRange) "map anonymous view" (by decide)

example (tab : SysTable) : (Error.input .advise .invalidRange).display tab =
    "failed to advise mapped memory, invalid range" :=
  C69_says tab (.input .advise .invalidRange) "advise mapped memory" (by decide)

end Vmap
