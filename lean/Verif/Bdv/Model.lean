import Verif.Num.Model
set_option autoImplicit false
/-
QUOTIENT with bignums as divisors: lisp/c/big.c:741-767 (`sub_int_big_big`), 809-839 (`div_big_big`), lisp/c/arith.c:800-870 (`QUOTIENT`, integer arguments).
A bignum is its vector of words, least significant first; an access outside the vector is undefined behaviour.
-/
namespace Eus.Bdv
open Eus.Num

/-- big.c:759-765: the carry after the last word of x: `while (hi > 0)` -/
def subTail (hi : Word) : List Word → Option (List Word)
  | [] => if hi.toInt ≤ 0 then some [] else none
  | y :: ys =>
    if hi.toInt ≤ 0 then some (y :: ys)
    else if (y - hi) &&& MSB ≠ 0 then (subTail 1 ys).map fun r => ((y - hi) &&& MASK) :: r
    else some ((y - hi) :: ys)

/-- big.c:753-757: one word: the new word and the carry -/
def subStep (c hi x y : Word) : Word × Word :=
  let p := extended_mul c x hi
  if (y - p.2) &&& MSB ≠ 0 then ((y - p.2) &&& MASK, p.1 + 1) else (y - p.2, p.1)

/-- big.c:752-766: the loop over the words of x -/
def subLoop (c : Word) : Word → List Word → List Word → Option (List Word)
  | _, [], ys => some ys
  | _, _ :: _, [] => none
  | hi, [x], y :: ys => (subTail (subStep c hi x y).2 ys).map fun r => (subStep c hi x y).1 :: r
  | hi, x :: xs, y :: ys => (subLoop c (subStep c hi x y).2 xs ys).map fun r => (subStep c hi x y).1 :: r

/-- big.c:741-768 `sub_int_big_big(c,x,y)`: y - c*x -/
def sub_int_big_big (c : Word) (x y : List Word) : Option (List Word) := (subLoop c 0 x y).map normalize_big

inductive DR where
  | ok (q : Word)
  | ub
  | more
deriving DecidableEq, Repr

/-- big.c:836-838.  The first argument bounds the number of rounds (`more`: not enough).
`big_compare` with an empty y looks at the word before the vector, which is its length, 0 boxed: not negative. -/
def divRounds : Nat → Word → List Word → List Word → DR
  | 0, _, _, _ => .more
  | n + 1, q, x, y =>
    if big_compare x y ≤ 0 then
      match sub_int_big_big 1 x y with
      | none => .ub
      | some y => divRounds n (q + 1) x y
    else .ok q

/-- big.c:819-833: the first guess.  `none`: a word of y that is not there, or division by 0 -/
def guess (x y : List Word) : Option Word :=
  let xt := big_sign x
  if x.length ≠ y.length then
    match y[x.length]?, y[x.length - 1]? with
    | some yh, some yl => if yh.toInt ≥ xt.toInt then some (MASK - 1) else some ((extended_div xt yh yl).1 - 2)
    | _, _ => none
  else
    match y[x.length - 1]? with
    | some yt => if xt = 0 then none else some (yt.sdiv xt - 2)
    | none => none

/-- big.c:809-839 `div_big_big(x,y)`: y divided by x -/
def div_big_big (fuel : Nat) (x y : List Word) : DR :=
  match guess x y with
  | none => .ub
  | some q =>
    if q.toInt ≤ 0 then divRounds fuel 0 x y
    else
      match sub_int_big_big q x y with
      | none => .ub
      | some y => divRounds fuel q x y

/-- arith.c:859-860: the quotient is stored in an `int`. -/
def bigResult (neg : Bool) : DR → Res
  | .ok q => .ok (mkbigint (truncInt (if neg then -q else q)))
  | .ub => .ub
  | .more => .err

/-- arith.c:851-869: the bignum loop of `QUOTIENT` (`neg`: C's `sign<0`) -/
def quoBig (fuel : Nat) (neg : Bool) (rs : List Word) : List Num → Res
  | [] => .ok (normalize_bignum (if neg then complement_big rs else rs))
  | .fix a :: rest =>
    let p := if a.toInt < 0 then (!neg, -a) else (neg, a)
    match div_int_big p.2 rs with
    | none => .err
    | some (rs, _) => quoBig fuel p.1 rs rest
  | .big a :: _ => bigResult neg (div_big_big fuel a rs)

/-- arith.c:800-870 `QUOTIENT` with at least two integer arguments -/
def QUOTIENT (fuel : Nat) : List Num → Res
  | .fix w :: a :: rest => quoFix w (a :: rest)
  | .big v :: a :: rest =>
    if (big_sign v).toInt < 0 then quoBig fuel true (complement_big v) (a :: rest)
    else quoBig fuel false v (a :: rest)
  | _ => .err

end Eus.Bdv
