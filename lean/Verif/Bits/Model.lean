import Verif.Num.Model
/-
Bitwise operations, shifts, byte fields, MOD, MAX/MIN (lisp/c/arith.c), integer arguments,
64-bit configuration.  Integer objects are as in `Verif/Num/Model.lean`.
-/
namespace Eus.Num

/-- eus.h:791-795 `ckintval(p)`: the word of an immediate or of a bignum of one word, or of two words
whose upper word is below 2; `none` is the error E_NOINT. -/
def ckintval : Num → Option Word
  | .fix w => some w
  | .big [a] => some a
  | .big [a, b] => if b.toInt < 2 then some ((b <<< 63) ||| a) else none
  | .big _ => none

/-- eus.h:796-801 `bigintval(x)` on integer objects: an immediate, one word, or word 0 combined with
the lowest bit of word 1 (words above are ignored). -/
def bigintval : Num → Word
  | .fix w => w
  | .big [] => 0
  | .big [a] => a
  | .big (a :: b :: _) => (b <<< 63) ||| a

/-- arith.c:360-373 `MOD` on integers: C's `%` on words; zero divisor is undefined. -/
def MOD (x y : Num) : Res :=
  if bigintval y = 0 then .ub else .ok (mkbigint ((bigintval x).srem (bigintval y)))

/-- arith.c:1103-1127 `MAX` on immediates: the loop, comparing boxed words; `none` when an argument
is not an immediate (the code then goes to floating point, not modelled). -/
def maxLoop (is : Word) : List Num → Option Word
  | [] => some is
  | .fix a :: rest => if (boxed is).toInt < (boxed a).toInt then maxLoop a rest else maxLoop is rest
  | .big _ :: _ => none

/-- arith.c:1103-1127 `MAX`. -/
def MAX : List Num → Option Num
  | [a] => some a
  | .fix w :: rest => (maxLoop w rest).map .fix
  | _ => none

/-- arith.c:1129-1153 `MIN`, the loop. -/
def minLoop (is : Word) : List Num → Option Word
  | [] => some is
  | .fix a :: rest => if (boxed is).toInt > (boxed a).toInt then minLoop a rest else minLoop is rest
  | .big _ :: _ => none

/-- arith.c:1129-1153 `MIN`. -/
def MIN : List Num → Option Num
  | [a] => some a
  | .fix w :: rest => (minLoop w rest).map .fix
  | _ => none

/-! ### LOGAND -/

/-- big.c:392-402 `extend_big(b,newsize)` for negative `b`: the words of `b` as they are (the old top
word keeps its sign bit), then MASK, and -1 on top. -/
def extend_neg (b : List Word) (newsize : Nat) : List Word :=
  b ++ (List.replicate (newsize - b.length - 1) MASK ++ [-1])

/-- arith.c:1190, 1197, 1200: `for (j..) rbv[j] &= p[j]`: combine the words both vectors have; the
words of `r` beyond `p` are given by `rest`. -/
def andWords (rest : List Word → List Word) : List Word → List Word → List Word
  | [], _ => []
  | r, [] => rest r
  | a :: r, b :: p => (a &&& b) :: andWords rest r p

/-- arith.c:1182-1201 (label bigand): `r` (bignum words) and one argument. -/
def bigand (r : List Word) : Num → List Word
  | .fix w =>
    match r with
    | [] => []
    | a :: rest => (a &&& w) :: (if w.toInt ≥ 0 then rest.map (fun _ => 0) else rest)
  | .big p =>
    if r.length ≥ p.length then
      andWords (fun t => if (big_sign p).toInt > 0 then t.map (fun _ => 0) else t) r p
    else if (big_sign r).toInt < 0 then
      andWords (fun t => t) (extend_neg r p.length) p
    else andWords (fun t => t) r p

/-- arith.c:1169-1178: the loop over immediates; `int k` keeps 32 bits.  A bignum argument leaves the
loop for `bigand` with the boxed word of the *first argument object* boxed again (line 1174: `r` is
still `argv[0]`), and `k` is forgotten. -/
def logandFix (r0 k : Word) : List Num → Num
  | [] => makeint k
  | .fix w :: rest => logandFix r0 (truncInt (k &&& w)) rest
  | .big b :: rest => normalize_bignum (rest.foldl bigand (bigand b (makeint (boxed r0))))

/-- arith.c:1158-1203 `LOGAND` on integers (`(logand big)` alone reads beyond `argv`: undefined). -/
def LOGAND : List Num → Res
  | [] => .ub
  | .big v :: a :: rest => .ok (normalize_bignum ((a :: rest).foldl bigand v))
  | [.big _] => .ub
  | .fix w :: rest => .ok (logandFix w (truncInt w) rest)

/-! ### the other bitwise functions -/

/-- arith.c:1205-1219 `LOGIOR`: bignums are cut to 64 bits. -/
def LOGIOR (args : List Num) : Res := .ok (mkbigint (args.foldl (fun r a => r ||| bigintval a) 0))

/-- all arguments as immediates (`ckintval`, eus.h, as used in arith.c); `none` is the error E_NOINT. -/
def immediates : List Num → Option (List Word)
  | [] => some []
  | .fix w :: rest => (immediates rest).map (w :: ·)
  | .big _ :: _ => none

/-- arith.c:1221-1230 `LOGXOR` (bignums are errors). -/
def LOGXOR (args : List Num) : Res :=
  match immediates args with
  | some ws => .ok (makeint (ws.foldl (· ^^^ ·) 0))
  | none => .err

/-- arith.c:1232-1241 `LOGEQV` (from the last argument to the first). -/
def LOGEQV (args : List Num) : Res :=
  match immediates args with
  | some ws => .ok (makeint (~~~ ws.reverse.foldl (· ^^^ ·) 0))
  | none => .err

/-- arith.c:1243-1252 `LOGNAND`. -/
def LOGNAND (args : List Num) : Res :=
  match immediates args with
  | some ws => .ok (makeint (~~~ ws.foldl (· &&& ·) (~~~0)))
  | none => .err

/-- arith.c:1254-1263 `LOGNOR`. -/
def LOGNOR (args : List Num) : Res :=
  match immediates args with
  | some ws => .ok (makeint (~~~ ws.foldl (· ||| ·) 0))
  | none => .err

/-- arith.c:1265-1274 `LOGNOT`. -/
def LOGNOT : Num → Res
  | .fix w => .ok (makeint (~~~ w))
  | .big _ => .err

/-- arith.c:1276-1284 `LOGTEST`, on boxed words with the tag bits removed. -/
def LOGTEST : Num → Num → Option Bool
  | .fix a, .fix b => some (boxed a &&& boxed b &&& ~~~3#64 != 0)
  | _, _ => none

/-- Outcome of a predicate of arith.c: T, NIL or an error. -/
inductive Ans where
  | yes | no | err | ub
deriving DecidableEq, Repr

/-- arith.c:1286-1295 `LOGBITP`; a shift by 64 or more is undefined in C. -/
def LOGBITP (index val : Num) : Ans :=
  match ckintval index, ckintval val with
  | some i, some v =>
    if i.toInt < 0 then .err
    else if i.toInt ≥ 64 then .ub
    else if (v.sshiftRight i.toNat) &&& 1#64 ≠ 0 then .yes else .no
  | _, _ => .err

/-! ### ASH -/

/-- ffsl(3): one plus the index of the lowest set bit, 0 if none. -/
def ffsl (w : Word) : Nat :=
  match (List.range 64).find? (fun i => w.getLsbD i) with
  | some i => i + 1
  | none => 0

/-- arith.c:1335-1338, from word `i` on: `c` is the part of word `i-1` shifted into word `i+j`.
(The C loop ors `x<<k` into `bv[i+j]` and stores `x>>(63-k)` in `bv[i+j+1]`; note that `x<<k` is not
masked to 63 bits.) -/
def shlLoop (k : Nat) (c : Word) : List Word → List Word
  | [] => [c]
  | x :: xs => (c ||| (x <<< k)) :: shlLoop k (x.sshiftRight (63 - k)) xs

/-- arith.c:1333-1338: shift left by `count ≥ 0`.  When `count` is a multiple of 63 the vector has
one word less than the loop writes: undefined.  Simplification: the size of the new vector is not
limited (memory, `int`). -/
def ashLeft (av : List Word) (count : Nat) : Option (List Word) :=
  let j := count / 63
  let k := count % 63
  if k = 0 then none else some (List.replicate j 0 ++ shlLoop k 0 av)

/-- arith.c:1342-1344: words of the right shift by `k` bits. -/
def shrLoop (k : Nat) : List Word → List Word
  | [] => []
  | [t] => [t.sshiftRight k]
  | x :: y :: rest => ((x.sshiftRight k) ||| ((y <<< (63 - k)) &&& MASK)) :: shrLoop k (y :: rest)

/-- arith.c:1330, 1339-1345: shift right by `c > 0`; the result vector has
`size + (-c + 62)/63` words (C division), of which the loop writes the low `size - j`; the rest keep
the 0 put there by `makevector`.  `none`: the stores of lines 1343-1344 are outside the vector. -/
def ashRight (av : List Word) (c : Nat) : Option (List Word) :=
  let j := c / 63
  let k := c % 63
  let bsize : Int := av.length + (62 - (c : Int)).tdiv 63
  if j ≥ av.length then none
  else some (shrLoop k (av.drop j) ++ List.replicate (bsize - (av.length - j : Nat)).toNat 0)

/-- arith.c:1326-1348. -/
def ashBig (av : List Word) (count : Int) : Res :=
  match (if count ≥ 0 then ashLeft av count.toNat else ashRight av (-count).toNat) with
  | some b => .ok (normalize_bignum b)
  | none => .ub

/-- arith.c:1297-1349 `ASH`.  Shifts of a word by 64 or more are undefined in C; left shift of a
negative word is taken to be the machine's. -/
def ASH (n count : Num) : Res :=
  match ckintval count with
  | none => .err
  | some c =>
    match n with
    | .fix val =>
      if c.toInt ≤ 0 then
        if -c.toInt ≥ 64 then .ub else .ok (makeint (val.sshiftRight (-c.toInt).toNat))
      else if val.toInt ≤ 0 then
        if c.toInt ≥ 64 then .ub else .ok (makeint (val <<< c.toInt.toNat))
      else if (ffsl val : Int) + c.toInt < 62 then .ok (makeint (val <<< c.toInt.toNat))
      else ashBig [val] c.toInt
    | .big v => ashBig v c.toInt

/-! ### byte fields -/

/-- arith.c:1351-1365 `LDB val pos width`, all arguments given, on unsigned words.  Shift counts
outside 0..63 are undefined in C. -/
def LDB (val pos width : Num) : Res :=
  match ckintval val, ckintval pos, ckintval width with
  | some v, some p, some w =>
    let a := 64 - p.toInt - w.toInt
    let b := 64 - w.toInt
    if 0 ≤ a ∧ a < 64 ∧ 0 ≤ b ∧ b < 64 then
      .ok (makeint ((v <<< a.toNat) >>> b.toNat))
    else .ub
  | _, _, _ => .err

/-- arith.c:1367-1387 `DPB val target pos width`. -/
def DPB (val target pos width : Num) : Res :=
  match ckintval val, ckintval target, ckintval pos, ckintval width with
  | some v, some t, some p, some w =>
    let a := 64 - (p.toInt + w.toInt)
    let b := 64 - w.toInt
    if 0 ≤ a ∧ a < 64 ∧ 0 ≤ b ∧ b < 64 ∧ 0 ≤ p.toInt ∧ p.toInt < 64 then
      let mask := ((~~~0#64 : Word) <<< a.toNat) >>> b.toNat
      let v := v &&& mask
      let mask := mask <<< p.toInt.toNat
      .ok (makeint ((t &&& ~~~mask) ||| (v <<< p.toInt.toNat)))
    else .ub
  | _, _, _, _ => .err

end Eus.Num
