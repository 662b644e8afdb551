import Mathlib.Algebra.Order.Ring.Int
set_option autoImplicit false
/-
Ratios (lisp/c/arith.c, makes.c, reader.c, 64-bit configuration).

Arguments are fixnums and ratios; floats, bignums and anything else are outside (`other`).  A ratio
object holds two fixnums, made by `makeratio(int,int)`, whose arguments are 32 bits wide although its
callers compute with 64 bits.
-/
namespace Eus.Rt

/-- Outcome: a value, undefined behaviour of C, or a case outside this model (overflow to a bignum). -/
inductive Res (α : Type) where
  | ok (a : α)
  | ub
  | other
deriving DecidableEq

/-- Sequencing. -/
def Res.bind {α β : Type} : Res α → (α → Res β) → Res β
  | .ok a, f => f a
  | .ub, _ => .ub
  | .other, _ => .other

/-- Conversion of a `long` to `int`. -/
def int32 (z : Int) : Int := z.bmod (2 ^ 32)

/-- The result of `+`, `-`, `*` on `long`; overflow is undefined. -/
def ck (z : Int) : Res Int := if -2 ^ 63 ≤ z ∧ z < 2 ^ 63 then .ok z else .ub

/-- `/` on `long`. -/
def cdiv (a b : Int) : Res Int := if b = 0 then .ub else ck (a.tdiv b)

/-- reader.c:846: `while(v!=0){t=u % v; u=v; v=t;}`, at most `n` rounds. -/
def euclid : Nat → Nat → Nat → Nat
  | 0, u, _ => u
  | n + 1, u, v => if v = 0 then u else euclid n v (u % v)

/-- reader.c:840-847 `gcd(int,int)`; negating -2^31 is undefined. -/
def gcd (u0 v0 : Int) : Res Int :=
  let u := int32 u0
  let v := int32 v0
  if u = -2 ^ 31 ∨ v = -2 ^ 31 then .ub
  else
    let a := u.natAbs
    let b := v.natAbs
    if a < b then .ok (euclid (a + 1) b a) else .ok (euclid (b + 1) a b)

/-- A ratio object (eus.h `struct ratio`), by the values of its two fixnums. -/
structure Ratio where
  num : Int
  den : Int
deriving DecidableEq

/-- makes.c:555-562 `makeratio(int,int)`. -/
def makeratio (num den : Int) : Ratio := ⟨int32 num, int32 den⟩

/-- arith.c:416-438 -/
def ratio_plus (x y : Ratio) : Res Ratio :=
  (gcd x.den y.den).bind fun d1 =>
  if d1 = 1 then
    (ck (x.num * y.den)).bind fun p => (ck (x.den * y.num)).bind fun q => (ck (p + q)).bind fun z_num =>
    (ck (x.den * y.den)).bind fun z_den => .ok (makeratio z_num z_den)
  else
    (cdiv y.den d1).bind fun yd => (cdiv x.den d1).bind fun xd =>
    (ck (x.num * yd)).bind fun p => (ck (y.num * xd)).bind fun q => (ck (p + q)).bind fun t =>
    (gcd t d1).bind fun d2 =>
    (cdiv t d2).bind fun z_num => (cdiv y.den d2).bind fun yd2 => (ck (xd * yd2)).bind fun z_den =>
    .ok (makeratio z_num z_den)

/-- arith.c:440-460 -/
def ratio_minus (x y : Ratio) : Res Ratio :=
  (gcd x.den y.den).bind fun d1 =>
  if d1 = 1 then
    (ck (x.num * y.den)).bind fun p => (ck (x.den * y.num)).bind fun q => (ck (p - q)).bind fun z_num =>
    (ck (x.den * y.den)).bind fun z_den => .ok (makeratio z_num z_den)
  else
    (cdiv y.den d1).bind fun yd => (cdiv x.den d1).bind fun xd =>
    (ck (x.num * yd)).bind fun p => (ck (y.num * xd)).bind fun q => (ck (p - q)).bind fun t =>
    (gcd t d1).bind fun d2 =>
    (cdiv t d2).bind fun z_num => (cdiv y.den d2).bind fun yd2 => (ck (xd * yd2)).bind fun z_den =>
    .ok (makeratio z_num z_den)

/-- arith.c:462-478 -/
def ratio_times (x y : Ratio) : Res Ratio :=
  (gcd x.num y.den).bind fun d1 => (gcd x.den y.num).bind fun d2 =>
  (cdiv x.num d1).bind fun a => (cdiv y.num d2).bind fun b => (ck (a * b)).bind fun z_num =>
  (cdiv x.den d2).bind fun c => (cdiv y.den d1).bind fun d => (ck (c * d)).bind fun z_den =>
  .ok (makeratio z_num z_den)

/-- arith.c:480-500; `abs` is the function of `int`. -/
def ratio_divide (x y : Ratio) : Res Ratio :=
  (gcd x.num y.num).bind fun d1 => (gcd x.den y.den).bind fun d2 =>
  let sign : Int := if y.num ≥ 0 then 1 else -1
  (cdiv x.num d1).bind fun a => (cdiv y.den d2).bind fun b => (ck (a * b)).bind fun p =>
  (ck (p * sign)).bind fun z_num =>
  (cdiv x.den d2).bind fun c => (cdiv y.num d1).bind fun d => (ck (c * d)).bind fun q =>
  if int32 q = -2 ^ 31 then .ub else .ok (makeratio z_num (int32 q).natAbs)

/-- Arguments and results: a fixnum or a ratio. -/
inductive Num where
  | fix (i : Int)
  | rat (r : Ratio)
deriving DecidableEq

/-- arith.c:522-526 `return_ratio` -/
def return_ratio (r : Ratio) : Num :=
  if r.num = 0 then .fix 0 else if r.den = 1 then .fix r.num else .rat r

/-- arith.c:59, 556, 649, 748, 836: a fixnum among ratios. -/
def toRatio : Num → Ratio
  | .fix i => makeratio i 1
  | .rat r => r

/-- The loops `rplus`, `RMINUS`, `RTIMES`, `rquo` (arith.c:553-561, 645-654, 744-756, 833-841). -/
def rloop (op : Ratio → Ratio → Res Ratio) : Ratio → List Num → Res Num
  | rs, [] => .ok (return_ratio rs)
  | rs, a :: as => (op rs (toRatio a)).bind fun rs' => rloop op rs' as

/-- The range of fixnums: 62 bits (eus.h). -/
def fixnum (z : Int) : Prop := -2 ^ 61 ≤ z ∧ z < 2 ^ 61

instance (z : Int) : Decidable (fixnum z) := inferInstanceAs (Decidable (_ ∧ _))

/-- arith.c:541-552: the fixnum loop of `PLUS`; the test of line 545 is exact for two fixnums
(`Verif.Num`). -/
def ploop : Int → List Num → Res Num
  | is, [] => .ok (.fix is)
  | is, .fix j :: as => if fixnum (is + j) then ploop (is + j) as else .other
  | is, .rat r :: as => rloop ratio_plus (makeratio is 1) (.rat r :: as)

/-- arith.c:529-594 `PLUS` -/
def plus (args : List Num) : Res Num := ploop 0 args

/-- arith.c:626-643: the fixnum loop of `MINUS`. -/
def mloop : Int → List Num → Res Num
  | is, [] => .ok (.fix is)
  | is, .fix j :: as => if fixnum (is - j) then mloop (is - j) as else .other
  | is, .rat r :: as => rloop ratio_minus (makeratio is 1) (.rat r :: as)

/-- arith.c:589-690 `MINUS`; without arguments an error (`other`). -/
def minus : List Num → Res Num
  | [] => .other
  | [.fix i] => if fixnum (-i) then .ok (.fix (-i)) else .other
  | [.rat r] => .ok (.rat (makeratio (-r.num) r.den))
  | .fix i :: as => mloop i as
  | .rat r :: as => rloop ratio_minus r as

/-- arith.c:714-741: the fixnum loop of `TIMES` (exactness of the product on fixnums is C06); a zero
factor ends the loop. -/
def tloop : Int → List Num → Res Num
  | is, [] => .ok (.fix is)
  | is, .fix j :: as =>
    if j = 0 ∨ is = 0 then .ok (.fix 0) else if fixnum (is * j) then tloop (is * j) as else .other
  | is, .rat r :: as => rloop ratio_times (makeratio is 1) (.rat r :: as)

/-- arith.c:690-792 `TIMES` -/
def times : List Num → Res Num
  | [] => .other
  | .fix i :: as => tloop i as
  | .rat r :: as => rloop ratio_times r as

/-- arith.c:823-831: the fixnum loop of `QUOTIENT`. -/
def qloop : Int → List Num → Res Num
  | is, [] => .ok (.fix is)
  | is, .fix j :: as => (cdiv is j).bind fun is' => qloop is' as
  | is, .rat r :: as => rloop ratio_divide (makeratio is 1) (.rat r :: as)

/-- arith.c:799-862 `QUOTIENT`; one fixnum is treated as a float (`other`). -/
def quotient : List Num → Res Num
  | [] => .other
  | [.fix _] => .other
  | .fix i :: as => qloop i as
  | .rat r :: as => rloop ratio_divide r as

/-- arith.c:56-65: the loop of `NUMEQUAL` for a ratio, from the last argument but one to the first. -/
def reqnum (x : Ratio) : List Num → Bool
  | [] => true
  | a :: as => if (toRatio a).num ≠ x.num ∨ (toRatio a).den ≠ x.den then false else reqnum x as

/-- arith.c:46-54: the loop for a fixnum. -/
def ieqnum (x : Int) : List Num → Bool
  | [] => true
  | .fix a :: as => if x ≠ a then false else ieqnum x as
  | .rat r :: as => reqnum (makeratio x 1) (.rat r :: as)

/-- arith.c:36-65 `NUMEQUAL`; fewer than two arguments are an error. -/
def numequal (args : List Num) : Res Bool :=
  if args.length ≤ 1 then .other
  else match args.reverse with
    | [] => .other
    | .fix x :: as => .ok (ieqnum x as)
    | .rat r :: as => .ok (reqnum r as)

/-- reader.c:849-861 `readratio`; `num` and `denom` are the values of `strtol` for the two parts of the
token (numbers outside the range of `long` aside). -/
def readratio (num0 denom0 : Int) : Res Num :=
  let num := int32 num0
  let denom := int32 denom0
  (gcd num denom).bind fun g =>
    if g ≠ 0 then
      (cdiv num g).bind fun n => (cdiv denom g).bind fun d =>
        .ok (if d = 1 then .fix n else .rat (makeratio n d))
    else .ok (.fix 0)

end Eus.Rt
