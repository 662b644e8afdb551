import Verif.Rnd.Model
set_option autoImplicit false
/-
What is needed of the rounding to a double: the relative error is at most 2^-53, and numbers of 53 bits times a power of two stay as they are.
-/
namespace Eus.Rnd

structure Rounding (r : ℚ → ℚ) : Prop where
  err : ∀ x, |r x - x| ≤ |x| / 2 ^ 53
  exact : ∀ (m : Int) (j : Nat), |m| ≤ 2 ^ 53 → r (m * 2 ^ j) = m * 2 ^ j

end Eus.Rnd
