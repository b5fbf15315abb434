import Verif.Model.Kernel
/- Specification for C17 (`read_until`). -/
namespace Vmap.Spec

/-- The elements up to and including the first `d`, or all if there is none. -/
def upTo (d : Byte) : List Byte → List Byte
  | [] => []
  | b :: l => if b = d then [b] else b :: upTo d l

end Vmap.Spec
