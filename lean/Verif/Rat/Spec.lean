import Verif.Rat.Model
import Mathlib.Data.Rat.Lemmas
set_option autoImplicit false
/-
What ratios stand for: rational numbers in lowest terms (`ℚ`, whose numerator and denominator are
coprime and whose denominator is positive).
-/
namespace Eus.Rt

/-- The Lisp number `v` is the rational number `q`: a fixnum if `q` is an integer, otherwise a ratio
with the numerator and the denominator of `q` in lowest terms. -/
def Rep : Num → ℚ → Prop
  | .fix i, q => q = i ∧ fixnum i
  | .rat r, q => r.num = q.num ∧ r.den = q.den ∧ q.den ≠ 1

/-- Fits a machine `int` (the value -2^31 left out). -/
def Fits (z : Int) : Prop := -2 ^ 31 < z ∧ z < 2 ^ 31

/-- Numerator and denominator fit. -/
def Fit (q : ℚ) : Prop := Fits q.num ∧ Fits q.den

/-- Adding fits: both arguments, the sum and its numerator over the least common denominator. -/
def FitAdd (x y : ℚ) : Prop :=
  Fit x ∧ Fit y ∧ Fit (x + y) ∧
  Fits (x.num * (y.den / Nat.gcd x.den y.den : Nat) + y.num * (x.den / Nat.gcd x.den y.den : Nat))

/-- Multiplying fits: the factors and the product. -/
def FitMul (x y : ℚ) : Prop := Fit x ∧ Fit y ∧ Fit (x * y)

/-- Dividing fits: both numbers and the quotient, and the divisor is not zero. -/
def FitDiv (x y : ℚ) : Prop := Fit x ∧ Fit y ∧ y ≠ 0 ∧ Fit (x / y)

/-- Every step of a computation from left to right satisfies `P`. -/
def Steps (P : ℚ → ℚ → Prop) (op : ℚ → ℚ → ℚ) : ℚ → List ℚ → Prop
  | _, [] => True
  | s, y :: ys => P s y ∧ Steps P op (op s y) ys

end Eus.Rt
