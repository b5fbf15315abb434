/- Spec: the digits of numbers in base 256. -/
namespace Vmap.Spec

/-- `bs` is `v` (taken modulo 256^|bs|) written in base 256: the `i`-th byte is the digit of weight
256^i (little-endian) or 256^(w-1-i) (big-endian). -/
def Digits (little : Bool) (bs : List UInt8) (v : Nat) : Prop :=
  ∀ i b, bs[i]? = some b →
    b.toNat = v / 256 ^ (if little then i else bs.length - 1 - i) % 256

end Vmap.Spec
