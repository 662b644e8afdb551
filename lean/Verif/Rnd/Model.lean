import Mathlib.Data.Rat.Floor
import Mathlib.Data.Int.Log
set_option autoImplicit false
/-
`random` of integers: lisp/c/arith.c:1421-1462.  `erand48` gives k/2^48 for a number k of 48 bits (the C library; its sequence is not modelled).
Simplified: no smallest or largest double (the numbers of the code are 0 or between 2^-48 and 2^63).
-/
namespace Eus.Rnd

/-- the nearest integer, of two the even one -/
def rint (x : ℚ) : Int :=
  if x - ⌊x⌋ < 1 / 2 then ⌊x⌋ else if 1 / 2 < x - ⌊x⌋ then ⌊x⌋ + 1 else if ⌊x⌋ % 2 = 0 then ⌊x⌋ else ⌊x⌋ + 1

/-- the double for x: 53 binary digits, to the nearest -/
def dbl (x : ℚ) : ℚ := rint (x / 2 ^ (Int.log 2 |x| - 52)) * 2 ^ (Int.log 2 |x| - 52)

/-- C conversion of a double to an integer: towards zero -/
def trunc (x : ℚ) : Int := if 0 ≤ x then ⌊x⌋ else ⌈x⌉

/-- arith.c:1447 `erand48`: the double for the 48 bits k -/
def erand48 (k : Nat) : ℚ := (k : ℚ) / 2 ^ 48

/-- arith.c:1451-1454: `irandval=randval*imax`, imax converted to double -/
def random (k : Nat) (imax : Int) : Int := trunc (dbl (erand48 k * dbl imax))

end Eus.Rnd
