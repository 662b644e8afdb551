import Mathlib.Data.Rat.Floor
import Mathlib.Data.Int.Log
set_option autoImplicit false
/-
Floats (64-bit configuration): how a double is kept in a pointer (lisp/c/eus.h), the rounding functions
(lisp/c/arith.c, big.c) and the printing of floats (lisp/c/printer.c).

A double is a pattern of 64 bits for the first part; in the other two parts a finite double is the rational
number it stands for, the library functions of C being the exact operations (`floor`, `ceil`, `rint`, `sprintf`
round correctly).
-/
namespace Eus.Flt

/-! ### The pointer of a float -/

/-- eus.h:815 `makeflt`: the low two bits of the pattern are replaced by the tag 1. -/
def makeflt (b : BitVec 64) : BitVec 64 := (b &&& ~~~3#64) ||| 1#64

/-- eus.h:814 `fltval` -/
def fltval (p : BitVec 64) : BitVec 64 := p &&& ~~~3#64

/-- eus.h:757 `isflt` -/
def isflt (p : BitVec 64) : Bool := p &&& 3#64 == 1#64

/-- eus.h:756 `isint` -/
def isint (p : BitVec 64) : Bool := p &&& 3#64 == 2#64 || p &&& 3#64 == 3#64

/-- eus.h:760 `ispointer` -/
def ispointer (p : BitVec 64) : Bool := p &&& 3#64 == 0#64

/-! ### The rounding functions -/

/-- The outcome of a C function: a value, or undefined behaviour. -/
inductive Res (α : Type) where
  | ok (a : α)
  | ub
deriving DecidableEq

/-- The library function `rint` in the default mode: the nearest integer, the even one of two. -/
def rint (x : ℚ) : Int :=
  let n := ⌊x⌋
  let d := x - n
  if d < 1 / 2 then n else if 1 / 2 < d then n + 1 else if n % 2 = 0 then n else n + 1

/-- The conversion of a double to `float` (24 bits; nearest, even; subnormal below 2^-126; none above the largest
float), as it happens to the argument of `eusfloat_to_big(float)`. -/
def toFloat (x : ℚ) : Option ℚ :=
  let u : ℚ := 2 ^ max (Int.log 2 |x| - 23) (-149)
  let y := rint (x / u) * u
  if |y| < 2 ^ 128 then some y else none

/-- The conversion of a `float` to `int`: truncation, undefined when the result does not fit. -/
def toInt (f : ℚ) : Res Int :=
  let i := if 0 ≤ f then ⌊f⌋ else ⌈f⌉
  if -2 ^ 31 ≤ i ∧ i < 2 ^ 31 then .ok i else .ub

/-- big.c:979, 983 (`int i; i=f; makeint(i)`), up to 2^61 (`MAXPOSFIXNUM` as a float). -/
def smallToInt (f : ℚ) : Res Int :=
  if f < 0 then
    match toInt (-f) with
    | .ok i => .ok (-i)
    | .ub => .ub
  else toInt f

/-- big.c:987-1001, for `f = 2^61` and above: the bignum is built from the 24 bits `iz` of the mantissa, `f = iz *
2^ex`, `ex = 63 i + j`.  `iz << j` is a shift of an `int`: undefined when it does not fit, that is for `j > 7` (the
test of line 1000 is then true too). -/
def bigToInt (f : ℚ) : Res Int :=
  let ex := Int.log 2 f + 1 - 24
  let iz := ⌊f / 2 ^ ex⌋
  let j := ex % 63
  if 2 ^ 31 ≤ iz * 2 ^ j.toNat then .ub
  else .ok (iz * 2 ^ ex.toNat)

/-- big.c:968-1002 `eusfloat_to_big`: an infinity is not a number `frexp` can take apart. -/
def eusfloat_to_big (x : ℚ) : Res Int :=
  match toFloat x with
  | none => .ub
  | some f =>
    if f < 0 then
      if -f ≤ 2 ^ 61 then smallToInt f
      else match bigToInt (-f) with
        | .ok i => .ok (-i)
        | .ub => .ub
    else if f ≤ 2 ^ 61 then smallToInt f
    else bigToInt f

/-- arith.c:1003-1018 -/
def ROUND (x : ℚ) : Res Int := eusfloat_to_big (rint x)

/-- arith.c:1020-1032 -/
def FLOOR (x : ℚ) : Res Int := eusfloat_to_big ⌊x⌋

/-- arith.c:1034-1045 -/
def CEILING (x : ℚ) : Res Int := eusfloat_to_big ⌈x⌉

/-- arith.c:1047-1059 -/
def TRUNCATE (x : ℚ) : Res Int := eusfloat_to_big x

/-! ### Printing -/

/-- The digits of a natural number, at least one. -/
def digitsFuel : Nat → Nat → List Char → List Char
  | 0, _, acc => acc
  | f + 1, n, acc =>
    let acc' := Char.ofNat (48 + n % 10) :: acc
    if n < 10 then acc' else digitsFuel f (n / 10) acc'

/-- The decimal digits of a natural number (`sprintf`). -/
def digits (n : Nat) : List Char := digitsFuel (n + 1) n []

/-- The last `i` decimal digits of a natural number. -/
def lastDigits : Nat → Nat → List Char
  | 0, _ => []
  | i + 1, n => lastDigits i (n / 10) ++ [Char.ofNat (48 + n % 10)]

/-- `-` of `sprintf`. -/
def signText (neg : Bool) : List Char := if neg then ['-'] else []

/-- `sprintf("%1.*f", i, x)`: `n` is `|x| * 10^i` rounded. -/
def fixedText (i : Nat) (x : ℚ) : List Char :=
  let n := (rint (|x| * 10 ^ i)).toNat
  signText (x < 0) ++ digits (n / 10 ^ i) ++ ['.'] ++ lastDigits i n

/-- The power of ten of the first digit. -/
def exp10 (x : ℚ) : Int := Int.log 10 x

/-- The mantissa (seven digits) and exponent of `%1.6e`; rounding may carry into an eighth digit. -/
def sciParts (x : ℚ) : Nat × Int :=
  let e := exp10 |x|
  let m := (rint (|x| / (10 : ℚ) ^ (e - 6))).toNat
  if m = 10 ^ 7 then (10 ^ 6, e + 1) else (m, e)

/-- The exponent of `%e`: a sign and at least two digits. -/
def expText (e : Int) : List Char :=
  (if e < 0 then ['e', '-'] else ['e', '+']) ++
    (if e.natAbs < 10 then ['0'] else []) ++ digits e.natAbs

/-- `sprintf("%1.6e", x)` -/
def sciText (x : ℚ) : List Char :=
  let (m, e) := sciParts x
  signText (x < 0) ++ digits (m / 10 ^ 6) ++ ['.'] ++ lastDigits 6 m ++ expText e

/-- printer.c:206: `while (len>2 && work[len-1]=='0' && work[len-2]!='.') len--`, on the reversed text. -/
def trimRev : List Char → List Char
  | c :: d :: r => if 2 < (c :: d :: r).length ∧ c = '0' ∧ d ≠ '.' then trimRev (d :: r) else c :: d :: r
  | l => l

/-- printer.c:199-204: the number of decimals, from the integer part. -/
def decimals (intpart : Int) : Nat :=
  if intpart < 1 then 6
  else if intpart < 10 then 5
  else if intpart < 100 then 4
  else if intpart < 1000 then 3
  else if intpart < 10000 then 2
  else 1

/-- printer.c:185-207 `printflt`, for a finite number. `0.0001` is the double nearest to it. -/
def printflt (lo : ℚ) (x : ℚ) : List Char :=
  if x = 0 then ['0', '.', '0']
  else if |x| < lo ∨ 10 ^ 5 < |x| then sciText x
  else (trimRev (fixedText (decimals ⌊|x|⌋) x).reverse).reverse

end Eus.Flt
