import Mathlib.Data.Rat.Defs
import Mathlib.Algebra.Order.Field.Rat
set_option autoImplicit false
/-
Arithmetic and comparison on mixtures of numbers (lisp/c/arith.c): which conversion and which operation meets each
argument.  The operations of doubles are parameters.  Simplified: bignums are the integers they stand for and the
bignum operations exact (their own errors: C02, C06, C09); ratios are rational numbers and their operations exact
(their range: C16); `ckfltval` of a fixnum and of a ratio is one conversion (`(double)n`, and the quotient of two
doubles, which is exact before rounding).
-/
namespace Eus.Mix

/-- The operations of C's `double`. -/
structure Fl (F : Type) where
  add : F → F → F
  sub : F → F → F
  mul : F → F → F
  div : F → F → F
  neg : F → F
  one : F
  conv : ℚ → F          -- of fixnums and ratios
  ofBig : Int → F       -- big.c:954 `big_to_float`
  raw : Int → F         -- the double whose pattern is the pointer of a fixnum
  lt : F → F → Bool
  le : F → F → Bool
  eq : F → F → Bool

/-- Numbers; `other` is an object that is not a number. -/
inductive N (F : Type) where
  | fix (n : Int)
  | big (n : Int)
  | rat (q : ℚ)
  | flt (x : F)
  | other

/-- Outcome: a value, an error, undefined behaviour, or a case left to other parts of the model. -/
inductive Res (α : Type) where
  | ok (a : α)
  | err
  | ub
  | outside

/-- The range of fixnums (eus.h:152-153). -/
def InFix (n : Int) : Prop := -2 ^ 61 ≤ n ∧ n < 2 ^ 61

instance (n : Int) : Decidable (InFix n) := by unfold InFix; infer_instance

variable {F : Type} (fl : Fl F)

/-- big.c:938-952 `normalize_bignum` -/
def norm (n : Int) : N F := if InFix n then .fix n else .big n

/-- arith.c:522-526 `return_ratio` -/
def ofQ (q : ℚ) : N F := if q.den = 1 then .fix q.num else .rat q

/-- eus.h:826-830 `ckfltval` -/
def ckflt : N F → Option F
  | .fix n => some (fl.conv n)
  | .big n => some (fl.ofBig n)
  | .rat q => some (fl.conv q)
  | .flt x => some x
  | .other => none

/-- The loops `fplus`, `FMINUS`, `FTIMES`, `fquo2` (arith.c:562-566, 656-661, 793-798, 844-849). -/
def floop (op : F → F → F) : F → List (N F) → Res (N F)
  | fs, [] => .ok (.flt fs)
  | fs, a :: r =>
    match ckflt fl a with
    | some x => floop op (op fs x) r
    | none => .err

/-! ### `+` -/

/-- arith.c:567-589 `bigplus`: `b` is a bignum object, or a fixnum once it has been normalised; the bignum
functions need the object.  Arguments that are not integers are passed over. -/
def bigplus : N F → List (N F) → Res (N F)
  | b, [] => .ok b
  | b, .fix j :: r =>
    match b with
    | .big n => bigplus (norm (n + j)) r
    | b' => if j = 0 then bigplus b' r else .ub
  | b, .big m :: r =>
    match b with
    | .big n => bigplus (norm (n + m)) r
    | _ => .ub
  | b, .rat _ :: r => bigplus b r
  | b, .flt _ :: r => bigplus b r
  | b, .other :: r => bigplus b r

/-- arith.c:553-561 `rplus` -/
def rplus : ℚ → List (N F) → Res (N F)
  | rs, [] => .ok (ofQ rs)
  | rs, .fix j :: r => rplus (rs + j) r
  | rs, .rat q :: r => rplus (rs + q) r
  | rs, .flt x :: r => floop fl fl.add (fl.add (fl.conv rs) x) r
  | _, .big _ :: _ => .err
  | _, .other :: _ => .err

/-- arith.c:539-552 -/
def iplus : Int → List (N F) → Res (N F)
  | is, [] => .ok (.fix is)
  | is, .fix j :: r => if InFix (is + j) then iplus (is + j) r else bigplus (.big (is + j)) r
  | is, .flt x :: r => floop fl fl.add (fl.add (fl.conv is) x) r
  | is, .rat q :: r => rplus fl (is + q) r
  | is, .big n :: r => bigplus (.big (n + is)) r
  | _, .other :: _ => .err

/-- arith.c:529-590 -/
def PLUS (args : List (N F)) : Res (N F) := iplus fl 0 args

/-! ### `-` -/

/-- arith.c:645-654 `RMINUS`: at a float the loop is left after the argument has been taken. -/
def rminus : ℚ → List (N F) → Res (N F)
  | rs, [] => .ok (ofQ rs)
  | rs, .fix j :: r => rminus (rs - j) r
  | rs, .rat q :: r => rminus (rs - q) r
  | rs, .flt _ :: r => floop fl fl.sub (fl.conv rs) r
  | _, .big _ :: _ => .err
  | _, .other :: _ => .err

mutual
/-- arith.c:624-643 `IMINUS` -/
def iminus (is : Int) : List (N F) → Res (N F)
  | [] => .ok (.fix is)
  | .fix j :: r => if InFix (is - j) then iminus (is - j) r else bigminus (is - j) r
  | .flt x :: r => floop fl fl.sub (fl.sub (fl.conv is) x) r
  | .rat q :: r => rminus fl (is - q) r
  | .big n :: r => if InFix (is - n) then iminus (is - n) r else bigminus (is - n) r
  | .other :: _ => .err

/-- arith.c:663-691 `BIGMINUS`: at a float, `fs` has no value. -/
def bigminus (b : Int) : List (N F) → Res (N F)
  | [] => .ok (.big b)
  | .fix j :: r => if InFix (b - j) then iminus (b - j) r else bigminus (b - j) r
  | .flt _ :: _ => .ub
  | .rat _ :: _ => .err
  | .big n :: r => if InFix (b - n) then iminus (b - n) r else bigminus (b - n) r
  | .other :: _ => .err
end

/-- arith.c:601-613: one argument. -/
def negate : N F → Res (N F)
  | .fix n => .ok (norm (-n))
  | .flt x => .ok (.flt (fl.neg x))
  | .rat q => .ok (.rat (-q))
  | .big n => .ok (norm (-n))
  | .other => .err

/-- arith.c:592-691 -/
def MINUS : List (N F) → Res (N F)
  | [] => .err
  | [a] => negate fl a
  | .fix n :: r => iminus fl n r
  | .flt x :: r => floop fl fl.sub x r
  | .rat q :: r => rminus fl q r
  | .big n :: r => bigminus fl n r
  | .other :: _ => .err

/-! ### `*` -/

/-- arith.c:744-756 `RTIMES` -/
def rtimes : ℚ → List (N F) → Res (N F)
  | rs, [] => .ok (ofQ rs)
  | rs, .fix j :: r => rtimes (rs * j) r
  | rs, .rat q :: r => rtimes (rs * q) r
  | rs, .flt x :: r => floop fl fl.mul (fl.mul (fl.conv rs) x) r
  | _, .big _ :: _ => .err
  | _, .other :: _ => .err

/-- arith.c:716-742 `ITIMES`: a zero ends the loop. -/
def itimes : Int → List (N F) → Res (N F)
  | is, [] => .ok (.fix is)
  | is, .fix s :: r =>
    if s = 0 ∨ is = 0 then .ok (.fix 0)
    else if |is * s| < 2 ^ 61 then itimes (is * s) r
    else .outside
  | is, .flt x :: r => floop fl fl.mul (fl.mul (fl.conv is) x) r
  | is, .rat q :: r => rtimes fl (is * q) r
  | _, .big _ :: _ => .outside
  | _, .other :: _ => .err

/-- arith.c:693-798; with no arguments `argv[0]` is read all the same. -/
def TIMES : List (N F) → Res (N F)
  | [] => .ub
  | .fix n :: r => itimes fl n r
  | .flt x :: r => floop fl fl.mul x r
  | .rat q :: r => rtimes fl q r
  | .big n :: .flt x :: r => floop fl fl.mul (fl.mul (fl.ofBig n) x) r
  | .big _ :: _ => .outside
  | .other :: _ => .err

/-! ### `/` -/

/-- arith.c:833-841 `rquo`; dividing by 0 makes a ratio with denominator 0. -/
def rquo : ℚ → List (N F) → Res (N F)
  | rs, [] => .ok (ofQ rs)
  | rs, .fix j :: r => if j = 0 then .outside else rquo (rs / j) r
  | rs, .rat q :: r => rquo (rs / q) r
  | rs, .flt x :: r => floop fl fl.div (fl.div (fl.conv rs) x) r
  | _, .big _ :: _ => .err
  | _, .other :: _ => .err

/-- arith.c:823-831; dividing by 0 is undefined in C. -/
def iquo : Int → List (N F) → Res (N F)
  | is, [] => if InFix is then .ok (.fix is) else .outside
  | is, .fix j :: r => if j = 0 then .ub else iquo (is.tdiv j) r
  | is, .flt x :: r => floop fl fl.div (fl.div (fl.conv is) x) r
  | is, .rat q :: r => rquo fl (is / q) r
  | _, .big _ :: r => iquo 0 r
  | _, .other :: _ => .err

/-- arith.c:800-872; with one fixnum (819-821) its pointer is taken for a float. -/
def QUOTIENT : List (N F) → Res (N F)
  | [] => .err
  | [.fix n] => .ok (.flt (fl.div fl.one (fl.raw n)))
  | [.flt x] => .ok (.flt (fl.div fl.one x))
  | .fix n :: r => iquo fl n r
  | .flt x :: r => floop fl fl.div x r
  | .rat q :: r => rquo fl q r
  | .big _ :: _ => .outside
  | .other :: _ => .err

/-! ### Comparison -/

inductive Cmp where
  | gt | lt | ge | le

/-- `left` fails against `right`, both fixnums or both bignums (arith.c:129, 153; 193, 217; 257, 281; 321, 345). -/
def exFail : Cmp → Int → Int → Bool
  | .gt, l, r => l ≤ r
  | .lt, l, r => r ≤ l
  | .ge, l, r => l < r
  | .le, l, r => r < l

/-- A bignum against a fixnum on its right (arith.c:132, 196, 260, 324). -/
def bigFixFail : Cmp → Int → Bool
  | .gt, l => l < 0
  | .lt, l => 0 < l
  | .ge, l => l < 0
  | .le, l => 0 < l

/-- A fixnum against a bignum on its right (arith.c:142, 206, 270, 334). -/
def fixBigFail : Cmp → Int → Bool
  | .gt, r => 0 ≤ r
  | .lt, r => r < 0
  | .ge, r => 0 < r
  | .le, r => r < 0

/-- Doubles (arith.c:161, 225, 289, 353). -/
def flFail : Cmp → F → F → Bool
  | .gt, l, r => fl.le l r
  | .lt, l, r => fl.le r l
  | .ge, l, r => fl.lt l r
  | .le, l, r => fl.lt r l

/-- `FLTGT1` (arith.c:159-163 and the other three); the arguments are taken from the right. -/
def fltLoop (c : Cmp) : F → List (N F) → Res Bool
  | _, [] => .ok true
  | fr, a :: r =>
    match ckflt fl a with
    | some x => if flFail fl c x fr then .ok false else fltLoop c x r
    | none => .err

mutual
/-- `INTGT` (arith.c:125-136 and the other three). -/
def intLoop (c : Cmp) (right : Int) : List (N F) → Res Bool
  | [] => .ok true
  | .fix l :: r => if exFail c l right then .ok false else intLoop c l r
  | .flt x :: r => if flFail fl c x (fl.conv right) then .ok false else fltLoop fl c x r
  | .big l :: r => if bigFixFail c l then .ok false else bigLoop c l r
  | .rat _ :: _ => .err
  | .other :: _ => .err

/-- `BIGGT` (arith.c:137-156 and the other three): after a float, `fright` is still the bignum; an argument that
is not a number is passed over. -/
def bigLoop (c : Cmp) (right : Int) : List (N F) → Res Bool
  | [] => .ok true
  | .fix l :: r => if fixBigFail c right then .ok false else intLoop c l r
  | .flt x :: r => if flFail fl c x (fl.ofBig right) then .ok false else fltLoop fl c (fl.ofBig right) r
  | .big l :: r => if exFail c l right then .ok false else bigLoop c l r
  | .rat _ :: _ => .err
  | .other :: r => bigLoop c right r
end

/-- From the last argument on. -/
def cmpRev (c : Cmp) : List (N F) → Res Bool
  | [] => .err
  | [_] => .err
  | .fix n :: r => intLoop fl c n r
  | .big n :: r => bigLoop fl c n r
  | .flt x :: r => fltLoop fl c x r
  | .rat _ :: _ => .err
  | .other :: _ => .err

/-- arith.c:104-360 `GREATERP`, `LESSP`, `GREQP`, `LSEQP`. -/
def COMPARE (c : Cmp) (args : List (N F)) : Res Bool := cmpRev fl c args.reverse

/-- arith.c:66-72: the last argument a float. -/
def eqFlt : F → List (N F) → Res Bool
  | _, [] => .ok true
  | fx, a :: r =>
    match ckflt fl a with
    | some y => if fl.eq fx y then eqFlt fx r else .ok false
    | none => .err

/-- arith.c:53-65: the last argument a ratio (or a fixnum made one). -/
def eqRat : ℚ → List (N F) → Res Bool
  | _, [] => .ok true
  | x, .flt y :: r => if fl.eq (fl.conv x) y then eqFlt fl (fl.conv x) r else .ok false
  | x, .fix n :: r => if (n : ℚ) = x then eqRat x r else .ok false
  | x, .rat q :: r => if q = x then eqRat x r else .ok false
  | _, .big _ :: _ => .err
  | _, .other :: _ => .err

/-- arith.c:45-52: the last argument a fixnum. -/
def eqInt : Int → List (N F) → Res Bool
  | _, [] => .ok true
  | x, .flt y :: r => if fl.eq (fl.conv x) y then eqFlt fl (fl.conv x) r else .ok false
  | x, .fix n :: r => if x = n then eqInt x r else .ok false
  | x, .rat q :: r => if q = x then eqRat fl x r else .ok false
  | _, .big _ :: _ => .ok false
  | _, .other :: _ => .err

/-- arith.c:73-84: the last argument a bignum. -/
def eqBig : Int → List (N F) → Res Bool
  | _, [] => .ok true
  | x, .big n :: r => if x = n then eqBig x r else .ok false
  | _, _ :: _ => .ok false

/-- From the last argument on. -/
def eqRev : List (N F) → Res Bool
  | [] => .err
  | [_] => .err
  | .fix n :: r => eqInt fl n r
  | .rat q :: r => eqRat fl q r
  | .flt x :: r => eqFlt fl x r
  | .big n :: r => eqBig n r
  | .other :: _ => .err

/-- arith.c:36-85 `NUMEQUAL` -/
def NUMEQUAL (args : List (N F)) : Res Bool := eqRev fl args.reverse

end Eus.Mix
