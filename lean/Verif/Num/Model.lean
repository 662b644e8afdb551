/-
Model of EusLisp integers: boxing (lisp/c/eus.c), multi-word arithmetic (lisp/c/big.c)
and the integer paths of the arithmetic functions (lisp/c/arith.c), 64-bit configuration.

A machine word (`eusinteger_t`, a signed 64-bit `long`) is a `BitVec 64`; `toInt` is its C value.
Signed overflow, formally undefined in C, is taken to wrap (documented in DESIGN.md).
A bignum is its vector of words, least significant first (big.c:8-14), as a `List Word`.
Destructive updates of a bignum are modelled by returning the new vector.
-/
namespace Eus.Num

/-- eus.h: `eusinteger_t` with WORD_SIZE == 64. -/
abbrev Word := BitVec 64

/-- eus.h:126 `#define MASK 0x7fffffffffffffff`. -/
def MASK : Word := 0x7fffffffffffffff#64
/-- eus.h:127 `#define MSB 0x8000000000000000`. -/
def MSB : Word := 0x8000000000000000#64
/-- eus.h:152. -/
def MAXPOSFIXNUM : Word := 0x1fffffffffffffff#64
/-- eus.h:153. -/
def MINNEGFIXNUM : Word := 0xe000000000000000#64

/-! ### Boxing -/

/-- A Lisp object as far as `makeint`/`intval` can tell: an immediate word (tag in the low two
bits), a bignum, or (for `intval` only) some other heap object. -/
inductive Obj where
  | imm (w : Word)
  | big (v : List Word)
deriving DecidableEq, Repr

/-- eus.h:802-803 `mkbigint(y)`: `makebig1(y)` when bits 61..63 of `y` are not all equal, otherwise
`makeint(y)`.  The recursive call back into `makeint` is represented by `none` (a call that would
recurse for ever); `C01_boxing_roundtrip` shows it is never taken from `makeint`. -/
def mkbigint? (y : Word) : Option Obj :=
  if (y ^^^ y.sshiftRight 1) &&& (3#64 <<< 61) ≠ 0 then some (.big [y]) else none

/-- eus.c:1379-1386 `makeint`. -/
def makeintObj (v : Word) : Option Obj :=
  if v.toInt > MAXPOSFIXNUM.toInt ∨ v.toInt < MINNEGFIXNUM.toInt then
    if v &&& 7#64 ≠ 0 then mkbigint? v
    else some (.imm (v ||| 3#64))
  else some (.imm ((v <<< 2) + 2#64))

/-- eus.h:796-801 `bigintval(x)` on a bignum: word 0, or word 0 combined with the lowest bit of
word 1. (`none` for a vector without words.) -/
def bigintval? : List Word → Option Word
  | [] => none
  | [a] => some a
  | a :: b :: _ => some ((b <<< 63) ||| a)

/-- eus.c:1387-1401 `intval`.  `none`: the null pointer (which raises SIGSEGV). -/
def intvalObj : Obj → Option Word
  | .imm i =>
    if i = 0 then none
    else if i &&& 3#64 = 3#64 then some (i &&& ~~~3#64)
    else if i &&& 7#64 = 0 then some i
    else some (i.sshiftRight 2)
  | .big v => bigintval? v

/-- eus.h:756 `isint(p)`: tag 2 or tag 3. -/
def isintObj : Obj → Bool
  | .imm i => (i &&& 3#64 = 2#64) || (i &&& 3#64 = 3#64)
  | .big _ => false

/-! ### Integer objects by value

From here on an immediate integer is represented by the word it stands for
(justified by `C01_boxing_roundtrip` and `C01_boxing_injective` in `Props`). -/

/-- An integer object (eus.h: `isint`, `isbignum`): an immediate (by value) or a bignum. -/
inductive Num where
  | fix (w : Word)
  | big (v : List Word)
deriving DecidableEq, Repr

/-- eus.c:1379-1386 `makeint`, result by value. -/
def makeint (v : Word) : Num :=
  if v.toInt > MAXPOSFIXNUM.toInt ∨ v.toInt < MINNEGFIXNUM.toInt then
    if v &&& 7#64 ≠ 0 then .big [v] else .fix v
  else .fix v

/-- eus.h:802-803 `mkbigint`, result by value. -/
def mkbigint (y : Word) : Num :=
  if (y ^^^ y.sshiftRight 1) &&& (3#64 <<< 61) ≠ 0 then .big [y] else makeint y

/-! ### big.c -/

/-- big.c:28-79 `extended_mul(d,q,r,hp,lp)`: returns `(*hp, *lp)`. -/
def extended_mul (d q r : Word) : Word × Word :=
  let ld := d &&& 0x00000000ffffffff#64
  let hd := (d.sshiftRight 32) &&& 0x000000007fffffff#64
  let lq := q &&& 0x00000000ffffffff#64
  let hq := (q.sshiftRight 32) &&& 0x000000007fffffff#64
  let m1 := ld * lq
  let hm1 := ((m1 &&& 0x8000000000000000#64).sshiftRight 32) &&& 0x0000000080000000#64
  let m2 := (m1 &&& 0x7fffffffffffffff#64) + r
  let lz1 := m2 &&& 0x00000000ffffffff#64
  let m3 := ((m2.sshiftRight 32) &&& 0x00000000ffffffff#64) + hm1 + lq * hd
  let hm2 := ((m3 &&& 0x8000000000000000#64).sshiftRight 31) &&& 0x00000001ffffffff#64
  let m4 := (m3 &&& 0x7fffffffffffffff#64) + hq * ld
  let lm := m4 &&& 0x000000007fffffff#64
  let lz := lz1 + (lm <<< 32)
  let m5 := ((m4.sshiftRight 31) &&& 0x00000001ffffffff#64) + hm2
  (m5 + hq * hd * 2#64, lz)

/-- State of the loop of `extended_div`. -/
structure DivSt where
  ans : Word
  lh : Word
  ll : Word

/-- big.c:94-108, one iteration of the loop of `extended_div`. -/
def divStep (d : Word) (s : DivSt) : DivSt :=
  let ans := s.ans <<< 1
  let lh := s.lh <<< 1
  let ll := s.ll <<< 1
  let lh := if ll.toInt < 0 then lh + 1 else lh
  let p := if lh.toInt ≥ d.toInt then (lh - d, ans + 1) else (lh, ans)
  let lh := p.1
  let ans := p.2
  if lh.toInt < 0 then
    ⟨ans + 1, (0x7fffffffffffffff#64 - d) + (lh &&& 0x7fffffffffffffff#64) + 1, ll⟩
  else ⟨ans, lh, ll⟩

/-- `n` iterations of `divStep` (the `for` loop of `extended_div`, bignum.c). -/
def divIter (d : Word) : Nat → DivSt → DivSt
  | 0, s => s
  | n + 1, s => divIter d n (divStep d s)

/-- big.c:81-113 `extended_div(d,h,l,qp,rp)`: returns `(*qp, *rp)`. -/
def extended_div (d h l : Word) : Word × Word :=
  let s := divIter d 63 ⟨0, h, l⟩
  (s.ans, s.lh)

/-- big.c:423-428 `big_sign`: the most significant word. (0 for the impossible empty vector.) -/
def big_sign (v : List Word) : Word := v.getLastD 0

/-- big.c:437-467 `big_compare`, the loops from the top word down; the arguments are the remaining
words, most significant first. `lt`/`gt` are the values returned. -/
def cmpDown (lt gt : Int) : List Word → List Word → Int
  | x :: xs, y :: ys =>
    if x.toInt < y.toInt then lt else if x.toInt > y.toInt then gt else cmpDown lt gt xs ys
  | _, _ => 0

/-- big.c:437-467 `big_compare(x,y)`.  Note line 456/457: in the negative branch the words below the
top one are compared with the opposite sense. -/
def big_compare (x y : List Word) : Int :=
  let xs := (big_sign x).toInt
  let ys := (big_sign y).toInt
  if xs < 0 ∧ ys ≥ 0 then -1
  else if xs ≥ 0 ∧ ys < 0 then 1
  else if xs < 0 then
    if x.length > y.length then -1
    else if x.length < y.length then 1
    else if xs < ys then -1
    else if xs > ys then 1
    else cmpDown 1 (-1) x.reverse.tail y.reverse.tail
  else
    if x.length > y.length then 1
    else if x.length < y.length then -1
    else cmpDown (-1) 1 x.reverse y.reverse

/-- big.c:494-499 (label ONE of `complement_big`) and big.c:532-538 (`big_minus`): complement the
remaining words, masking all but the last. -/
def notRest : List Word → List Word
  | [] => []
  | [t] => [~~~t]
  | l :: rest => (~~~l &&& MASK) :: notRest rest

/-- big.c:475-501 `complement_big(x)`. -/
def complement_big : List Word → List Word
  | [] => []
  | [t] => if t = ~~~MASK then [0, 1] else [-t]
  | l :: rest => if l ≠ 0 then (-l &&& MASK) :: notRest rest else l :: complement_big rest

/-- big.c:507-543 `big_minus(x)`; words not assigned keep the 0 put there by `makevector`
(makes.c:417-436). -/
def big_minus : List Word → List Word
  | [] => []
  | [t] => if t = MSB then [0, 1] else [-t]
  | l :: rest => if l ≠ 0 then (-l &&& MASK) :: notRest rest else 0 :: big_minus rest

/-- big.c:552-574 `add_int_big(c,x)`. -/
def add_int_big (c : Word) : List Word → List Word
  | [] => []
  | [t] =>
    if t.toInt ≥ 0 then
      if (t + c).toInt < 0 then [(t + c) &&& MASK, 1] else [t + c]
    else [t + c]
  | l :: rest =>
    if (l + c).toInt < 0 then ((l + c) &&& MASK) :: add_int_big 1 rest else (l + c) :: rest

/-- big.c:582-599 `sub_int_big(c,x)`. -/
def sub_int_big (c : Word) : List Word → List Word
  | [] => []
  | [t] =>
    if t.toInt < 0 then
      if (t - c).toInt ≥ 0 then [(t - c) &&& MASK, -2] else [t - c]
    else [t - c]
  | l :: rest =>
    if (l - c).toInt < 0 then ((l - c) &&& MASK) :: sub_int_big 1 rest else (l - c) :: rest

/-- big.c:614-617, the loop of `mul_int_big` from the current word on, with carry `h`, and the final
`stretch_big`. -/
def mulLoop (c h : Word) : List Word → List Word
  | [] => if h.toInt > 0 then [h] else []
  | x :: xs => let p := extended_mul c x h; p.2 :: mulLoop c p.1 xs

/-- big.c:607-618 `mul_int_big(c,x)`. -/
def mul_int_big (c : Word) (x : List Word) : List Word := mulLoop c 0 x

/-- big.c:638-641, the loop of `div_int_big` below the top word, most significant first; returns the
quotient words (most significant first) and the remainder. -/
def divLoop (c r : Word) : List Word → List Word × Word
  | [] => ([], r)
  | x :: xs => let p := extended_div c r x; let q := divLoop c p.2 xs; (p.1 :: q.1, q.2)

/-- big.c:628-642 `div_int_big(c,x)`: the new vector and the remainder; `none` for the
divide-by-zero error (line 633) and the empty vector.  `%` and `/` on words are C's (truncating). -/
def div_int_big (c : Word) (x : List Word) : Option (List Word × Word) :=
  if c = 0 then none else
  match x.reverse with
  | [] => none
  | t :: rest =>
    let r := t.srem c
    let p := divLoop c r rest
    some ((t.sdiv c :: p.1).reverse, p.2)

/-- big.c:664-687, `big_plus` for words of the shorter operand `y` consumed against the longer `x`;
`c` is the carry (0 or 1).  The equal-length tail is lines 669-674, the unequal-length tail is
`plusTail`. -/
def plusTail (c : Word) : List Word → List Word
  | [] => []
  | [t] =>
    let z := t + c
    if c.toInt ≥ 0 ∧ t.toInt ≥ 0 ∧ z.toInt < 0 then [z &&& MASK, 1]
    else if c.toInt < 0 ∧ t.toInt < 0 ∧ z.toInt ≥ 0 then [z, -2]
    else [z]
  | l :: rest =>
    let z := l + c
    if z.toInt < 0 then (z &&& MASK) :: plusTail c rest else z :: rest

/-- big.c:664-687 `big_plus` after the exchange of lines 655-657: `x` is at least as long as `y`. -/
def plusLoop (c : Word) : List Word → List Word → List Word
  | [], _ => []
  | xs, [] => xs
  | [x], [y] =>
    let z := x + y + c
    if x.toInt ≥ 0 ∧ y.toInt ≥ 0 ∧ z.toInt < 0 then [z &&& MASK, 1]
    else if x.toInt < 0 ∧ y.toInt < 0 ∧ z.toInt ≥ 0 then [z, -2]
    else [z]
  | x :: xs, [y] =>
    let z := x + y + c
    if z.toInt < 0 then (z &&& MASK) :: plusTail (if y.toInt ≥ 0 then 1 else -1) xs
    else z :: xs
  | x :: xs, y :: ys =>
    let z := x + y + c
    if z.toInt < 0 then (z &&& MASK) :: plusLoop 1 xs ys else z :: plusLoop 0 xs ys

/-- big.c:648-688 `big_plus(x,y)`. -/
def big_plus (x y : List Word) : List Word :=
  if x.length < y.length then plusLoop 0 y x else plusLoop 0 x y

/-- big.c:719-724, adding the final carry `hi` of one row of `big_times` into the words above.
`none`: the "bignum mult overflow" error. -/
def timesCarry (hi : Word) : List Word → Option (List Word)
  | [] => if hi.toInt > 0 then none else some []
  | z :: zs =>
    if hi.toInt > 0 then
      let z' := z + hi
      if z' &&& MSB ≠ 0 then (timesCarry 1 zs).map ((z' &&& MASK) :: ·) else some (z' :: zs)
    else some (z :: zs)

/-- big.c:713-726, one row of `big_times`: `m` is the (already truncated, see `big_times`) multiplier,
`z` the accumulator from position `i` on. -/
def timesRow (m hi : Word) : List Word → List Word → Option (List Word)
  | [], z => some z
  | _ :: _, [] => none
  | y :: ys, z :: zs =>
    let p := extended_mul m y hi
    let z' := z + p.2
    let q := if z' &&& MSB ≠ 0 then (z' &&& MASK, p.1 + 1) else (z', p.1)
    if ys = [] then (timesCarry q.2 zs).map (q.1 :: ·)
    else (timesRow m q.2 ys zs).map (q.1 :: ·)

/-- big.c:699,711: `int m; m=xv[i];` keeps the low 32 bits and sign-extends when passed on. -/
def truncInt (w : Word) : Word := (w.truncate 32).signExtend 64

/-- big.c:710-727, the outer loop of `big_times` over the words of `x`. -/
def timesLoop : List Word → List Word → List Word → Option (List Word)
  | [], _, z => some z
  | x :: xs, y, z =>
    match timesRow (truncInt x) 0 y z with
    | none => none
    | some [] => none
    | some (z0 :: zs) => (timesLoop xs y zs).map (z0 :: ·)

/-- big.c:695-731 `big_times(x,y)`. -/
def big_times (x y : List Word) : Option (List Word) :=
  timesLoop x y (List.replicate (x.length + y.length) 0)

/-- big.c:920-936 `normalize_big(x)`.  The C loop drops top words equal to 0 (non-negative numbers)
or to -1 (negative numbers of more than one word), then sets the sign bit of the new top word if
the number was negative. -/
def normalize_big (v : List Word) : List Word :=
  let positive := decide ((big_sign v).toInt ≥ 0)
  let drop := fun w : Word => (positive && w == 0) || (!positive && w == -1 && v.length != 1)
  let nv := (v.reverse.dropWhile drop).reverse
  if nv.length ≠ v.length ∧ !positive then
    nv.dropLast ++ [nv.getLastD 0 ||| MSB]
  else nv

/-- big.c:938-952 `normalize_bignum(x)` applied to a bignum. -/
def normalize_bignum (v : List Word) : Num :=
  match normalize_big v with
  | [] => makeint 0
  | [y] =>
    let msb3 := y.sshiftRight 61 &&& 7#64
    if msb3 = 0 ∨ msb3 = 7 then makeint y else .big [y]
  | w => .big w

/-! ### arith.c, integer arguments only -/

/-- Outcome of an arithmetic function: a result, a Lisp error, or undefined behaviour. -/
inductive Res where
  | ok (n : Num)
  | err
  | ub
deriving DecidableEq, Repr

/-- arith.c:545 and 630: `((is >> 1) ^ is) & (1<<61)`. -/
def ovf (is : Word) : Bool := (is.sshiftRight 1 ^^^ is) &&& (1#64 <<< 61) ≠ 0

/-- arith.c:573-588, the second loop of `PLUS`; `b` is the C variable of that name.  Using an
immediate integer where a bignum is expected is undefined behaviour. -/
def plusBig (b : Num) : List Num → Res
  | [] => .ok b
  | .fix j :: rest =>
    if j.toInt > 0 then
      match b with
      | .big v => plusBig (normalize_bignum (add_int_big j v)) rest
      | .fix _ => .ub
    else if j.toInt < 0 then
      match b with
      | .big v => plusBig (normalize_bignum (sub_int_big (-j) v)) rest
      | .fix _ => .ub
    else
      match b with
      | .big v => plusBig (normalize_bignum v) rest
      | .fix w => plusBig (.fix w) rest
  | .big a :: rest =>
    match b with
    | .big v => plusBig (normalize_bignum (big_plus a v)) rest
    | .fix _ => .ub

/-- arith.c:570-571. -/
def addSigned (is : Word) (b : List Word) : List Word :=
  if is.toInt ≥ 0 then add_int_big is b else sub_int_big (-is) b

/-- arith.c:540-552 and 567-571, the first loop of `PLUS` (integer arguments). -/
def plusFix (is : Word) : List Num → Res
  | [] => .ok (makeint is)
  | .fix j :: rest =>
    if ovf (is + j) then plusBig (.big (addSigned (is + j) [0])) rest else plusFix (is + j) rest
  | .big a :: rest => plusBig (.big (addSigned is a)) rest

/-- arith.c:529-589 `PLUS` on integer arguments. -/
def PLUS (args : List Num) : Res := plusFix 0 args

/-- arith.c:602-613: `(- a)`. -/
def MINUS1 : Num → Num
  | .fix w => if w = MINNEGFIXNUM then .big [-MINNEGFIXNUM] else makeint (-w)
  | .big v => normalize_bignum (big_minus v)

/-- Accumulator of `MINUS`/`TIMES`: in the fixnum loop (`is`) or the bignum loop (`b`). -/
inductive Acc where
  | fixnum (is : Word)
  | bignum (b : List Word)

/-- arith.c:625-643 (IMINUS) and 663-688 (BIGMINUS) on integer arguments. -/
def minusLoop : Acc → List Num → Num
  | .fixnum is, [] => makeint is
  | .bignum b, [] => .big b
  | .fixnum is, .fix j :: rest =>
    if ovf (is - j) then minusLoop (.bignum [is - j]) rest else minusLoop (.fixnum (is - j)) rest
  | .fixnum is, .big a :: rest =>
    let z := big_minus a
    let z := if is.toInt > 0 then add_int_big is z
             else if is.toInt < 0 then sub_int_big (-is) z else z
    match normalize_bignum z with
    | .fix w => minusLoop (.fixnum w) rest
    | .big z => minusLoop (.bignum z) rest
  | .bignum b, .fix ia :: rest =>
    let b := if ia.toInt > 0 then sub_int_big ia b
             else if ia.toInt < 0 then add_int_big (-ia) b else b
    match normalize_bignum b with
    | .fix w => minusLoop (.fixnum w) rest
    | .big b => minusLoop (.bignum b) rest
  | .bignum b, .big a :: rest =>
    match normalize_bignum (big_plus b (big_minus a)) with
    | .fix w => minusLoop (.fixnum w) rest
    | .big b => minusLoop (.bignum b) rest

/-- arith.c:591-688 `MINUS` on integer arguments. -/
def MINUS : List Num → Res
  | [] => .err
  | [a] => .ok (MINUS1 a)
  | .fix w :: rest => .ok (minusLoop (.fixnum w) rest)
  | .big v :: rest => .ok (minusLoop (.bignum v) rest)

/-- arith.c:763-771 (label BIGTIMES1): multiply the bignum `b` by the word `is`.  `sign` is the top
word of `b`, so it is 0 when the top word is 0. -/
def bigTimesFix (b : List Word) (is : Word) : Num :=
  let sign := big_sign b
  let b := if sign.toInt < 0 then complement_big b else b
  let p := if is.toInt < 0 then (-sign, -is) else (sign, is)
  let b := mul_int_big p.2 b
  let b := if p.1.toInt < 0 then complement_big b else b
  normalize_bignum b

/-- arith.c:775-785: bignum times bignum (`sign` is computed and never used). -/
def bigTimesBig (b a : List Word) : Option Num :=
  let b := if (big_sign b).toInt < 0 then complement_big b else b
  let a := if (big_sign a).toInt < 0 then big_minus a else a
  (big_times a b).map normalize_bignum

/-- What one argument does to `TIMES`: leave the loop with a result, or go on with a new `sign` and
accumulator. -/
inductive TStep where
  | done (r : Res)
  | cont (sign : Word) (x : Acc)

/-- Where `TIMES` continues with a normalized product: `isint(b)` decides (lines 771, 785). -/
def contNum (sign : Word) : Num → TStep
  | .fix w => .cont sign (.fixnum w)
  | .big b => .cont sign (.bignum b)

/-- arith.c:717-742 (ITIMES), fixnum accumulator `is` and fixnum argument `s`; `sign` is the C
variable, which is never reset to 1 inside the loop.  Line 728 normalizes and line 730 uses the
result as a bignum: undefined if it became an immediate. -/
def timesFF (sign is s : Word) : TStep :=
  if s = 0 ∨ is = 0 then .done (.ok (makeint 0))
  else
    let p := if is.toInt < 0 then ((-1 : Word), -is) else (sign, is)
    let q := if s.toInt < 0 then (-p.1, -s) else (p.1, s)
    let m := extended_mul p.2 q.2 0
    if m.1 ≠ 0 ∨ m.2 &&& (7#64 <<< 61) ≠ 0 then
      match normalize_bignum [m.2 &&& MASK, m.1] with
      | .fix _ => .done .ub
      | .big b => .cont q.1 (.bignum (if q.1.toInt < 0 then complement_big b else b))
    else .cont q.1 (.fixnum (m.2 * q.1))

/-- arith.c:714-742 (ITIMES) and 758-791 (BIGTIMES): one integer argument.  C's `sign = -sign` on
`-2^63` (line 767) is signed overflow; the model wraps, as the compiled code does. -/
def timesStep (sign : Word) : Acc → Num → TStep
  | .fixnum is, .fix s => timesFF sign is s
  | .fixnum is, .big a =>
    contNum (if is.toInt < 0 then -big_sign a else big_sign a) (bigTimesFix a is)
  | .bignum b, .fix is =>
    contNum (if is.toInt < 0 then -big_sign b else big_sign b) (bigTimesFix b is)
  | .bignum b, .big a =>
    match bigTimesBig b a with
    | none => .done .err
    | some n => contNum (if (big_sign a).toInt < 0 then -big_sign b else big_sign b) n

/-- arith.c:714-791: the loops of `TIMES` on integer arguments. -/
def timesLoopA (sign : Word) (x : Acc) : List Num → Res
  | [] =>
    match x with
    | .fixnum is => .ok (makeint is)
    | .bignum b => .ok (.big b)
  | a :: rest =>
    match timesStep sign x a with
    | .done r => r
    | .cont sign' x' => timesLoopA sign' x' rest

/-- arith.c:690-798 `TIMES` on integer arguments (no argument: reads `argv[0]`, undefined). -/
def TIMES : List Num → Res
  | [] => .ub
  | .fix w :: rest => timesLoopA 1 (.fixnum w) rest
  | .big v :: rest => timesLoopA 1 (.bignum v) rest

/-- arith.c:823-831: the fixnum loop of `QUOTIENT`, integer arguments; C division by zero is
undefined. -/
def quoFix (is : Word) : List Num → Res
  | [] => .ok (makeint is)
  | .fix a :: rest => if a = 0 then .ub else quoFix (is.sdiv a) rest
  | .big _ :: rest => quoFix 0 rest

/-- arith.c:851-869: the bignum loop of `QUOTIENT`, fixnum divisors only (`neg`: C's `sign<0`).
A bignum divisor (line 858-860, `div_big_big`) is not modelled here: `err`. -/
def quoBig (neg : Bool) (rs : List Word) : List Num → Res
  | [] => .ok (normalize_bignum (if neg then complement_big rs else rs))
  | .fix a :: rest =>
    let p := if a.toInt < 0 then (!neg, -a) else (neg, a)
    match div_int_big p.2 rs with
    | none => .err
    | some (rs, _) => quoBig p.1 rs rest
  | .big _ :: _ => .err

/-- arith.c:800-870 `QUOTIENT` with at least two integer arguments. -/
def QUOTIENT : List Num → Res
  | .fix w :: a :: rest => quoFix w (a :: rest)
  | .big v :: a :: rest =>
    if (big_sign v).toInt < 0 then quoBig true (complement_big v) (a :: rest)
    else quoBig false v (a :: rest)
  | _ => .err

/-- arith.c:375-392 `1-` on integers.  An immediate has 4 subtracted from its boxed word, which
subtracts 1 from its value when it carries tag 2 (in-range value) and 4 when it carries tag 3. -/
def SUB1 : Num → Num
  | .fix w =>
    if w = MINNEGFIXNUM then .big [MINNEGFIXNUM - 1]
    else if w.toInt > MAXPOSFIXNUM.toInt ∨ w.toInt < MINNEGFIXNUM.toInt then .fix (w - 4)
    else .fix (w - 1)
  | .big v => normalize_bignum (sub_int_big 1 v)

/-- arith.c:395-412 `1+` on integers; a bignum result is not normalized (line 410). -/
def ADD1 : Num → Num
  | .fix w =>
    if w = MAXPOSFIXNUM then .big [MAXPOSFIXNUM + 1]
    else if w.toInt > MAXPOSFIXNUM.toInt ∨ w.toInt < MINNEGFIXNUM.toInt then .fix (w + 4)
    else .fix (w + 1)
  | .big v => .big (add_int_big 1 v)

/-- arith.c:983-1001 `ABS` on integers. -/
def ABS : Num → Num
  | .fix w => if w = MINNEGFIXNUM then .big [-MINNEGFIXNUM]
              else makeint (if w.toInt < 0 then -w else w)
  | .big v => if (big_sign v).toInt < 0 then .big (complement_big v) else .big v

/-- The boxed word of an immediate integer (eus.c:1384-1385). -/
def boxed (w : Word) : Word :=
  if w.toInt > MAXPOSFIXNUM.toInt ∨ w.toInt < MINNEGFIXNUM.toInt then w ||| 3#64
  else (w <<< 2) + 2#64

/-- arith.c:36-84 `NUMEQUAL` on integer arguments, last argument `x` first; compares boxed words, or
bignum vectors word by word. -/
def numeqLoop (x : Num) : List Num → Bool
  | [] => true
  | a :: rest =>
    match x, a with
    | .fix w, .fix u => if boxed w ≠ boxed u then false else numeqLoop x rest
    | .big v, .big u => if v.length ≠ u.length then false
                        else if v ≠ u then false else numeqLoop x rest
    | _, _ => false

/-- arith.c:36-84 `=`; `none` is the argument-count error. -/
def NUMEQUAL (args : List Num) : Option Bool :=
  match args.reverse with
  | x :: a :: rest => some (numeqLoop x (a :: rest))
  | _ => none

/-- arith.c:124-155: the loops INTGT and BIGGT of `GREATERP` on integers: `right` is the element to
the right, the list holds the remaining arguments from right to left.
A loop that runs out of arguments in BIGGT falls through to FLTGT (line 156), whose loop is then
empty, and returns T. -/
def gtLoop (right : Num) : List Num → Bool
  | [] => true
  | left :: rest =>
    match right, left with
    | .fix r, .fix l => if (boxed l).toInt ≤ (boxed r).toInt then false else gtLoop left rest
    | .fix _, .big l => if (big_sign l).toInt < 0 then false else gtLoop left rest
    | .big r, .fix _ => if (big_sign r).toInt ≥ 0 then false else gtLoop left rest
    | .big r, .big l => if big_compare l r ≤ 0 then false else gtLoop left rest

/-- arith.c:188-219: the loops INTLT and BIGLT of `LESSP` on integers. -/
def ltLoop (right : Num) : List Num → Bool
  | [] => true
  | left :: rest =>
    match right, left with
    | .fix r, .fix l => if (boxed l).toInt ≥ (boxed r).toInt then false else ltLoop left rest
    | .fix _, .big l => if (big_sign l).toInt > 0 then false else ltLoop left rest
    | .big r, .fix _ => if (big_sign r).toInt < 0 then false else ltLoop left rest
    | .big r, .big l => if big_compare l r ≥ 0 then false else ltLoop left rest

/-- arith.c:252-283: the loops INTGE and BIGGE of `GREQP` on integers. -/
def geLoop (right : Num) : List Num → Bool
  | [] => true
  | left :: rest =>
    match right, left with
    | .fix r, .fix l => if (boxed l).toInt < (boxed r).toInt then false else geLoop left rest
    | .fix _, .big l => if (big_sign l).toInt < 0 then false else geLoop left rest
    | .big r, .fix _ => if (big_sign r).toInt > 0 then false else geLoop left rest
    | .big r, .big l => if big_compare l r < 0 then false else geLoop left rest

/-- arith.c:316-347: the loops INTLE and BIGLE of `LSEQP` on integers. -/
def leLoop (right : Num) : List Num → Bool
  | [] => true
  | left :: rest =>
    match right, left with
    | .fix r, .fix l => if (boxed l).toInt > (boxed r).toInt then false else leLoop left rest
    | .fix _, .big l => if (big_sign l).toInt > 0 then false else leLoop left rest
    | .big r, .fix _ => if (big_sign r).toInt < 0 then false else leLoop left rest
    | .big r, .big l => if big_compare l r > 0 then false else leLoop left rest

/-- arith.c:168-230 `<` on integers. -/
def LESSP (args : List Num) : Option Bool :=
  match args.reverse with
  | x :: a :: rest => some (ltLoop x (a :: rest))
  | _ => none

/-- arith.c:232-294 `>=` on integers. -/
def GREQP (args : List Num) : Option Bool :=
  match args.reverse with
  | x :: a :: rest => some (geLoop x (a :: rest))
  | _ => none

/-- arith.c:296-358 `<=` on integers. -/
def LSEQP (args : List Num) : Option Bool :=
  match args.reverse with
  | x :: a :: rest => some (leLoop x (a :: rest))
  | _ => none

/-- arith.c:104-166 `>` on integers. -/
def GREATERP (args : List Num) : Option Bool :=
  match args.reverse with
  | x :: a :: rest => some (gtLoop x (a :: rest))
  | _ => none

end Eus.Num
