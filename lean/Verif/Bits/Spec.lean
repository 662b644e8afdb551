import Verif.Num.Spec
/-
Specification vocabulary for the bitwise functions: bit `i` of the infinite two's complement
expansion of an integer.
-/
namespace Eus.Num

/-- Bit `i` of the infinite two's complement expansion of `z`: `floor(z / 2^i)` is odd. -/
def ibit (z : Int) (i : Nat) : Bool := (z / 2 ^ i) % 2 == 1

end Eus.Num
