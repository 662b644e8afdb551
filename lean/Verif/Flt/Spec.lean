import Mathlib.Data.Rat.Floor
set_option autoImplicit false
/-
What the theorems about floats are measured against: the numbers patterns of bits stand for (IEEE 754 binary64),
and the numbers decimal texts stand for.
-/
namespace Eus.Flt.Spec

/-- What a pattern of 64 bits stands for. -/
inductive Dbl where
  | fin (neg : Bool) (mag : ℚ)
  | inf (neg : Bool)
  | nan

/-- Sign, exponent field and fraction field. -/
def signOf (n : Nat) : Bool := n / 2 ^ 63 == 1
def expOf (n : Nat) : Nat := n / 2 ^ 52 % 2 ^ 11
def fracOf (n : Nat) : Nat := n % 2 ^ 52

/-- The unit in the last place of a finite number with that exponent field. -/
def ulp (n : Nat) : ℚ := if expOf n = 0 then (2 : ℚ) ^ (-1074 : Int) else (2 : ℚ) ^ ((expOf n : Int) - 1075)

/-- The magnitude of a finite number. -/
def mag (n : Nat) : ℚ := ((if expOf n = 0 then 0 else 2 ^ 52) + fracOf n : ℕ) * ulp n

/-- IEEE 754 binary64. -/
def decode (b : BitVec 64) : Dbl :=
  if expOf b.toNat = 2047 then (if fracOf b.toNat = 0 then .inf (signOf b.toNat) else .nan)
  else .fin (signOf b.toNat) (mag b.toNat)

/-- The value of a finite number; 0 for the others. -/
def Dbl.val : Dbl → ℚ
  | .fin s m => if s then -m else m
  | _ => 0

def Dbl.finite : Dbl → Bool
  | .fin _ _ => true
  | _ => false

/-! ### Integers -/

/-- Integers of at most 24 significant bits: those a C `float` can hold. -/
def Short (n : Int) : Prop := ∃ (k : Int) (j : ℕ), n = k * 2 ^ j ∧ |k| ≤ 2 ^ 24

/-- The nearest integer, the even one of two. -/
def Nearest (x : ℚ) (n : Int) : Prop := |(n : ℚ) - x| ≤ 1 / 2 ∧ (|(n : ℚ) - x| = 1 / 2 → n % 2 = 0)

/-! ### Decimal texts -/

def digitVal (c : Char) : Option Nat := if '0' ≤ c ∧ c ≤ '9' then some (c.toNat - 48) else none

/-- A non-empty string of digits as a number. -/
def natVal (l : List Char) : Option Nat :=
  if l = [] then none else l.foldl (fun a c => a.bind fun n => (digitVal c).map fun d => 10 * n + d) (some 0)

/-- digits `.` digits -/
def fixedVal (l : List Char) : Option ℚ :=
  let a := l.takeWhile (· ≠ '.')
  let b := (l.dropWhile (· ≠ '.')).drop 1
  (natVal a).bind fun i => (natVal b).map fun f => (i : ℚ) + f / 10 ^ b.length

/-- A sign and digits. -/
def expVal : List Char → Option Int
  | '-' :: l => (natVal l).map fun n : Nat => -(n : Int)
  | '+' :: l => (natVal l).map fun n : Nat => (n : Int)
  | _ => none

/-- A number without sign: a fixed part, perhaps `e` and an exponent. -/
def unsignedVal (l : List Char) : Option ℚ :=
  if 'e' ∈ l then
    (fixedVal (l.takeWhile (· ≠ 'e'))).bind fun m =>
      (expVal ((l.dropWhile (· ≠ 'e')).drop 1)).map fun e => m * (10 : ℚ) ^ e
  else fixedVal l

/-- The number a decimal text stands for. -/
def textVal : List Char → Option ℚ
  | '-' :: l => (unsignedVal l).map fun v => -v
  | l => unsignedVal l

end Eus.Flt.Spec
