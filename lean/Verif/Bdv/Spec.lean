import Verif.Num.Spec
set_option autoImplicit false
/-
Which quotients of two bignums are right.
-/
namespace Eus.Bdv
open Eus.Num

/-- b has n + 1 words, the highest at least 2^31; a has at least as many. -/
def Fits (a b : Int) : Prop :=
  ∃ n : Nat, 2 ^ 31 * (2 ^ 63) ^ n ≤ b ∧ b < (2 ^ 63) ^ (n + 1) ∧ ((2 : Int) ^ 63) ^ n ≤ a.natAbs

end Eus.Bdv
