import Verif.Num.Model
set_option autoImplicit false
/-
The printer (lisp/c/printer.c) and the reader (lisp/c/reader.c), on byte sequences.

A byte is a natural number (below 256 where it matters).  An input stream is the list of the bytes
not read yet: `readch` takes the head and `unreadch` puts back the byte just read
(lisp/c/eusstream.c:114-153; every `unreadch` of the reader follows a `readch` of the same stream, so
its case `count = 0` does not arise).  An output stream is the list of bytes written.
The configuration modelled is the default one after start-up: the readtable of reader.c:1048-1075 with
the macro characters of lisp/l/readmacro.l:40-41, `readcase` = `:upcase`, `*print-circle*`,
`*print-object*` and `*print-structure*` nil, the C locale.  `*read-base*`, `*print-base*`,
`*print-case*`, `*print-length*` and `*print-level*` are parameters.
-/
namespace Eus.Rd
open Eus.Num

/-! ### characters -/

/-- eus.h:460-469 `enum ch_type` (without the two unused values). -/
inductive CT where
  | illegal | white | constituent | sglescape | multiescape | termmacro | nontermacro
deriving DecidableEq, Repr

/-- reader.c:47-113 `chartype[256]`. -/
def chartype (c : Nat) : CT :=
  if c = 8 then .constituent
  else if c = 9 ∨ c = 10 ∨ c = 12 ∨ c = 13 ∨ c = 32 then .white
  else if c < 32 then .illegal
  else if c = 34 ∨ c = 39 ∨ c = 40 ∨ c = 41 ∨ c = 44 ∨ c = 59 then .termmacro
  else if c = 35 then .nontermacro
  else if c = 92 then .sglescape
  else if c = 124 then .multiescape
  else .constituent

/-- reader.c:27 `syntaxtype`, the syntax table of the readtable: `chartype` (reader.c:1068-1070) but
for the backquote, made a terminating macro by `set-macro-character` (readmacro.l:41,
lispio.c:374-377). -/
def syntaxtype (c : Nat) : CT := if c = 96 then .termmacro else chartype c

/-- The characters with a macro in the readtable: reader.c:1054-1059 and readmacro.l:40-41. -/
def hasMacro (c : Nat) : Bool :=
  c = 40 || c = 41 || c = 35 || c = 39 || c = 34 || c = 59 || c = 44 || c = 96

/-- `islower` in the C locale. -/
def islower (c : Nat) : Bool := 97 ≤ c && c ≤ 122

/-- `isupper` in the C locale. -/
def isupper (c : Nat) : Bool := 65 ≤ c && c ≤ 90

/-- reader.c `to_upper` (printer.c:20). -/
def to_upper (c : Nat) : Nat := if islower c then c - 97 + 65 else c

/-- printer.c:21 `to_lower`. -/
def to_lower (c : Nat) : Nat := if isupper c then c - 65 + 97 else c

/-- reader.c:769-778 `is_digit(ch,base)`. -/
def is_digit (base c : Nat) : Bool :=
  if c < 48 then false
  else if base ≤ 10 then decide (c < 48 + base)
  else if c ≤ 57 then true
  else if 65 ≤ c ∧ c < 65 + base - 10 then true
  else false

/-! ### printing integers -/

/-- Parameters of the printer: `*print-base*`, whether `*print-case*` is `:downcase`, and
`*print-length*` (printer.c:334-339: 65536 unless it is an integer). -/
structure PCfg where
  base : Nat
  down : Bool
  prlength : Nat

/-- printer.c:167-169 and 263-268: the character of a digit. -/
def digitChar (down : Bool) (d : Nat) : Nat :=
  if d < 10 then 48 + d else if down then 97 + d - 10 else 65 + d - 10

/-- printer.c:159-170: the loop filling `work` from its end; the first argument is the room left.
`none`: the buffer overruns. -/
def workLoop (base : Nat) (down : Bool) : Nat → Nat → List Nat → Option (List Nat)
  | 0, _, _ => none
  | i + 1, num, acc =>
    let digit := num % base
    let num' := num / base
    let acc' := (if base ≤ 10 then 48 + digit else digitChar down digit) :: acc
    if num' = 0 then some acc' else workLoop base down i num' acc'

/-- `while (j-- > 0) writech(f,c)`. -/
def pad (j : Int) (c : Nat) : List Nat := List.replicate j.toNat c

/-- printer.c:150-182 `printint(num,base,field1,field2)`; `none`: division by zero, or the loop does
not fit in `work`. -/
def printint (base : Nat) (down : Bool) (w : Word) (field1 field2 : Int) : Option (List Nat) :=
  if base = 0 then none else
  let neg := decide (w.toInt < 0)
  let num := (if neg then -w else w).toNat
  match workLoop base down 65 num [] with
  | none => none
  | some ds =>
    let n : Int := ds.length
    let j := if neg then (if field2 > n + 1 then field1 - field2 else field1 - (n + 1))
             else (if field2 > n then field1 - field2 else field1 - n)
    let k := if neg then field2 - n - 1 else field2 - n
    some (pad j 32 ++ (if neg then [45] else []) ++ pad k 48 ++ ds)

/-- big.c:408-415 `big_zerop`. -/
def big_zerop (v : List Word) : Bool := v.all (· = 0)

/-- printer.c:249-253: the loop of `printbig` pushing digits, and 262-269 writing them last first.
The first argument bounds the number of rounds (64 per word always suffice for a base of 2 or more);
`none`: it does not stop, or divides by zero. -/
def bigLoop (base : Nat) (down : Bool) : Nat → List Word → List Nat → Option (List Nat)
  | 0, _, _ => none
  | n + 1, v, acc =>
    if big_zerop v then some acc
    else match div_int_big (BitVec.ofNat 64 base) v with
      | none => none
      | some (q, d) => bigLoop base down n q (digitChar down d.toNat :: acc)

/-- printer.c:230-270 `printbig`. -/
def printbig (base : Nat) (down : Bool) (v : List Word) (field1 field2 : Int) : Option (List Nat) :=
  let neg := decide ((big_sign v).toInt < 0)
  let b := if neg then big_minus v else v
  match bigLoop base down (64 * b.length + 1) b [] with
  | none => none
  | some ds =>
    let n : Int := ds.length
    let i := if field2 < n then field1 - n else field1 - field2
    let i := if neg then i - 1 else i
    let k := if neg then field2 - n - 1 else field2 - n
    some (pad i 32 ++ (if neg then [45] else []) ++ pad k 48 ++ ds)

/-- printer.c:272-285 `printnum`, integers. -/
def printnum (base : Nat) (down : Bool) (n : Num) (field1 field2 : Int) : Option (List Nat) :=
  match n with
  | .fix w => printint base down w field1 field2
  | .big v => printbig base down v field1 field2

/-! ### what is printed and read -/

/-- The objects printed and read.  A symbol without a prefix stands for the symbol of that name in the
current package (`intern` of the current package, see `Verif.Pkg`), `key` for a keyword; a floating
number and a ratio are left as the token they are read from. -/
inductive T where
  | int (n : Num)
  | str (s : List Nat)
  | sym (name : List Nat)
  | key (name : List Nat)
  | pkgsym (pkg name : List Nat) (internal : Bool)
  | float (token : List Nat)
  | ratio (token : List Nat)
  | cons (a d : T)
deriving DecidableEq, Repr

/-- The name of `nil`. -/
def nilName : List Nat := [78, 73, 76]
/-- `nil`. -/
def NIL : T := .sym nilName
/-- The symbol `quote`. -/
def QUOTE : T := .sym [81, 85, 79, 84, 69]
/-- The symbol `function`. -/
def FUNCTION : T := .sym [70, 85, 78, 67, 84, 73, 79, 78]

/-! ### printing symbols and strings -/

/-- printer.c:98-106: must the name be written between bars? -/
def needEscape (base : Nat) (name : List Nat) : Bool :=
  name.any (fun c => chartype c ≠ .constituent || islower c || c = 58 || c = 96 || hasMacro c)
    || name.all (is_digit base)

/-- printer.c:111-116: filling the buffer `b[256]` from position `i`; returns the bytes put there and
what remains of the name.  Note that `l` decreases while `i` grows.  `none`: a write past the end of
the buffer. -/
def fillB (lower : Bool) : Nat → List Nat → Option (List Nat × List Nat)
  | _, [] => some ([], [])
  | i, c :: s =>
    if i < s.length + 1 ∧ i < 256 then
      let c' := if lower then to_lower c else c
      let out := if chartype c = .multiescape then [92, c'] else [c']
      if i + out.length > 256 then none
      else (fillB lower (i + out.length) s).map fun r => (out ++ r.1, r.2)
    else some ([], c :: s)

/-- printer.c:108-118: the loop `while (l>0)`; the first argument bounds the number of rounds (each
one takes at least one byte). -/
def symBody (lower : Bool) : Nat → List Nat → Option (List Nat)
  | _, [] => some []
  | 0, _ :: _ => none
  | n + 1, c :: s =>
    match fillB lower 0 (c :: s) with
    | none => none
    | some (out, rest) => (symBody lower n rest).map (out ++ ·)

/-- printer.c:83-125 `printsym` after `symprefix`, with `slashflag` 0. -/
def printname (p : PCfg) (name : List Nat) : Option (List Nat) :=
  let escape := needEscape p.base name
  match symBody (!escape && p.down) name.length name with
  | none => none
  | some b => some (if escape then 124 :: b ++ [124] else b)

/-- printer.c:127-140 `printstr`, with `slashflag` 0: the characters between the quotes. -/
def strBody : List Nat → List Nat
  | [] => []
  | c :: s => (if c = 34 ∨ c = 92 then [92, c] else [c]) ++ strBody s

/-- printer.c:127-140 `printstr`. -/
def printstr (s : List Nat) : List Nat := 34 :: strBody s ++ [34]

/-- printer.c:578-589, 593, 609: an object that is not a list.  Symbols: `symprefix`
(printer.c:50-81) writes nothing before a symbol of the current package and `:` before a keyword.
Symbols of other packages, floats and ratios are not printed by the model (`none`). -/
def printAtom (p : PCfg) : T → Option (List Nat)
  | .int n => printnum p.base p.down n 0 0
  | .str s => some (printstr s)
  | .sym n => printname p n
  | .key n => (printname p n).map (58 :: ·)
  | _ => none

/-- printer.c:489-490: the text of a list from that of its first element and of the rest. -/
def listText : Option (List Nat) → Option (List Nat) → Option (List Nat)
  | some h, some t => some (40 :: h ++ t)
  | _, _ => none

/-- printer.c:481-488: is this `(quote x)` or `(function x)`?  Gives the characters written before
`x`. -/
def quoteMark (a : T) : T → Option (List Nat)
  | .cons _ r => if a = QUOTE ∧ r = NIL then some [39]
                 else if a = FUNCTION ∧ r = NIL then some [35, 39] else none
  | _ => none

mutual
/-- printer.c:567-617 `prin1(x,prlevel)` with `*print-circle*` nil, and 473-490, 495-497 the
beginning of `printlist`. -/
def prin1 (p : PCfg) : T → Int → Option (List Nat)
  | .cons a d, lev =>
    if lev ≤ 0 then some [35] else
    match quoteMark a d with
    | some m => (prin1Cadr p d (lev - 2)).map (m ++ ·)
    | none => listText (prin1 p a (lev - 1)) (printRest p d p.prlength (lev - 1))
  | t, lev => if lev ≤ 0 then some [35] else printAtom p t
/-- printer.c:483, 487: `prin1(ccar(ccdr(x)))`. -/
def prin1Cadr (p : PCfg) : T → Int → Option (List Nat)
  | .cons x _, lev => prin1 p x lev
  | _, _ => none
/-- printer.c:491-502, the rest of `printlist`: the elements after the first, the dotted end and the
closing parenthesis. -/
def printRest (p : PCfg) : T → Nat → Int → Option (List Nat)
  | .cons a d, len, lev =>
    if len - 1 = 0 then some [32, 46, 46, 46, 41]
    else match prin1 p a lev, printRest p d (len - 1) lev with
      | some h, some t => some (32 :: h ++ t)
      | _, _ => none
  | t, _, lev =>
    if t = NIL then some [41]
    else (if lev ≤ 0 then some [35] else printAtom p t).map fun h => [32, 46, 32] ++ h ++ [41]
end

/-- printer.c:638-666 `prinx`: what `prin1` writes; `*print-level*` nil gives 65536. -/
def prinx (p : PCfg) (x : T) (prlevel : Int := 65536) : Option (List Nat) := prin1 p x prlevel

/-! ### reading tokens -/

/-- The token read so far, whether something in it was escaped, and the position of the last package
marker (`colon`, -1 as `none`). -/
structure Tok where
  tok : List Nat
  escaped : Bool
  colon : Option Nat
deriving DecidableEq, Repr

/-- What reading a token gives: the token and the rest of the stream, or an error. -/
inductive TokRes where
  | done (t : Tok) (rest : List Nat)
  | err
deriving DecidableEq, Repr

/-- `token[i++]=ch` for a character read in step 8. -/
def Tok.put (t : Tok) (c : Nat) : Tok :=
  { t with tok := t.tok ++ [to_upper c], colon := if c = 58 then some t.tok.length else t.colon }

/-- `token[i++]=ch` for an escaped character. -/
def Tok.putEsc (t : Tok) (c : Nat) : Tok := { t with tok := t.tok ++ [c], escaped := true }

mutual
/-- reader.c:882-905, label `step8` of `read2`. -/
def step8 (t : Tok) : List Nat → TokRes
  | [] => if t.tok.length ≥ 1024 then .err else .done t []
  | c :: s =>
    if t.tok.length ≥ 1024 then .err else
    match syntaxtype c with
    | .constituent | .nontermacro => step8 (t.put c) s
    | .sglescape =>
      match s with
      | [] => if t.tok.length + 1 ≥ 1024 then .err else .done (t.putEsc 255) []
      | c' :: s' => step8 (t.putEsc c') s'
    | .multiescape => step9 { t with escaped := true } s
    | .illegal => .err
    | .termmacro | .white => .done t (c :: s)
/-- reader.c:906-921, label `step9` of `read2`. -/
def step9 (t : Tok) : List Nat → TokRes
  | [] => .err
  | c :: s =>
    if t.tok.length ≥ 1024 then .err else
    match syntaxtype c with
    | .constituent | .nontermacro | .termmacro | .white => step9 (t.putEsc c) s
    | .sglescape =>
      match s with
      | [] => .err
      | c' :: s' => step9 (t.putEsc c') s'
    | .multiescape => step8 { t with escaped := true } s
    | .illegal => .err
end

/-- reader.c:690-723 `readsymbol`: which symbol a token names. -/
def readsymbol (t : Tok) : T :=
  match t.colon with
  | none => .sym t.tok
  | some 0 => .key (t.tok.drop 1)
  | some (c + 1) =>
    if t.tok.getD c 0 = 58 then .pkgsym (t.tok.take c) (t.tok.drop (c + 2)) true
    else .pkgsym (t.tok.take (c + 1)) (t.tok.drop (c + 2)) false

/-- `c=='E' || c=='D' || c=='F' || c=='L'` after `to_upper`. -/
def isExp (c : Nat) : Bool :=
  to_upper c = 69 || to_upper c = 68 || to_upper c = 70 || to_upper c = 76

/-- What a token is. -/
inductive Kind where
  | int | float | ratio | symbol
deriving DecidableEq, Repr

/-- reader.c:939-945 and 954-960: after the exponent letter. -/
def expKind (base : Nat) (r : List Nat) : Kind :=
  let r' := match r with
    | c :: r1 => if c = 43 ∨ c = 45 then r1 else r
    | [] => []
  if r'.dropWhile (is_digit base) = [] then .float else .symbol

/-- reader.c:929-965, the analysis of an unescaped token after its optional sign.  (The token holds no
zero byte, since that byte is illegal outside escapes; `token[i]` is the zero put at line 923.) -/
def numKind (base : Nat) (a : List Nat) : Kind :=
  match a with
  | [] => .symbol
  | c :: _ =>
    if is_digit base c || c = 46 then
      match a.dropWhile (is_digit base) with
      | [] => .int
      | d :: r1 =>
        if d = 46 then
          if r1 = [] then .int
          else match r1.dropWhile (is_digit base) with
            | [] => .float
            | e :: r2 => if isExp e then expKind base r2 else .symbol
        else if d = 47 then
          if r1 = [] then .symbol
          else if r1.dropWhile (is_digit base) = [] then .ratio else .symbol
        else if isExp d then expKind base r1 else .symbol
    else .symbol

/-- reader.c:922-965, label `step10`: what an unescaped token is. -/
def tokKind (base : Nat) (tok : List Nat) : Kind :=
  match tok with
  | c :: r => if c = 43 ∨ c = 45 then numKind base r else if tok = [46] then .symbol else numKind base tok
  | [] => .symbol

/-! ### reading integers -/

/-- reader.c:757-759: the value of a digit character; `none` for another character. -/
def digitVal (c : Nat) : Option Nat :=
  if 48 ≤ c ∧ c ≤ 57 then some (c - 48)
  else if 65 ≤ c ∧ c ≤ 90 then some (c - 65 + 10)
  else if 97 ≤ c ∧ c ≤ 122 then some (c - 97 + 10)
  else none

/-- C's `strtol` on digits: stops at the first character that is not a digit of the base. -/
def strtolDigits (base : Nat) : List Nat → Nat → Nat
  | [], acc => acc
  | c :: s, acc =>
    match digitVal c with
    | some d => if d < base then strtolDigits base s (acc * base + d) else acc
    | none => acc

/-- C's `strtol(token,NULL,base)` on a token without leading blanks (and not `0x…` in base 16, which
`is_digit` never lets through). -/
def strtol (base : Nat) (tok : List Nat) : Int :=
  match tok with
  | c :: r => if c = 45 then -(strtolDigits base r 0 : Int)
              else if c = 43 then strtolDigits base r 0
              else strtolDigits base tok 0
  | [] => 0

/-- reader.c:755-763: the digit loop of `readint`; `none`: the "illegal integer constituent" error. -/
def readDigits (base : Nat) : List Nat → List Word → Option (List Word)
  | [], b => some b
  | c :: s, b =>
    match digitVal c with
    | some k => readDigits base s (add_int_big (BitVec.ofNat 64 k) (mul_int_big (BitVec.ofNat 64 base) b))
    | none => if c = 46 then readDigits base s b else none

/-- reader.c:738-767 `readint(token,len)`; line 747: `i` is an `int`. -/
def readint (base : Nat) (tok : List Nat) : Option Num :=
  if tok.length < 8 then some (makeint (truncInt (BitVec.ofInt 64 (strtol base tok))))
  else
    let neg := decide (tok.head? = some 45)
    let ds := if tok.head? = some 43 ∨ tok.head? = some 45 then tok.tail else tok
    match readDigits base ds [0] with
    | none => none
    | some b => some (normalize_bignum (if neg then complement_big b else b))

/-- What `read1` returns: an object, the marks UNBOUND (nothing read) and EOF, an error, undefined
behaviour, or a case outside the model (a macro written in Lisp, or another `#` macro). -/
inductive R where
  | val (t : T)
  | unbound
  | eof
  | err
  | ub
  | other
deriving DecidableEq, Repr

/-- reader.c:922-966, label `step10`. -/
def step10 (base : Nat) (t : Tok) : R :=
  if t.escaped then .val (readsymbol t)
  else match tokKind base t.tok with
    | .int => match readint base t.tok with
      | some n => .val (.int n)
      | none => .err
    | .float => .val (.float t.tok)
    | .ratio => .val (.ratio t.tok)
    | .symbol => .val (readsymbol t)

/-- The end of `read2`. -/
def finish (base : Nat) : TokRes → R × List Nat
  | .done t rest => (step10 base t, rest)
  | .err => (.err, [])

/-! ### reading strings, comments and hexadecimal literals -/

/-- reader.c:653-682 `readstring` (the buffer doubles when full, lines 666-674, so any length fits). -/
def readstring : List Nat → List Nat × List Nat
  | [] => ([], [])
  | c :: s =>
    if c = 34 then ([], s)
    else if syntaxtype c = .sglescape then
      match s with
      | [] => ([255], [])
      | c' :: s' => let r := readstring s'; (c' :: r.1, r.2)
    else let r := readstring s; (c :: r.1, r.2)

/-- reader.c:825-831 `readcomment`, after the semicolon (`Char` is signed, so byte 255 counts as the
end of file). -/
def readcomment : List Nat → List Nat
  | [] => []
  | c :: s => if c = 10 ∨ c = 255 then s else readcomment s

/-- reader.c:475-483, `read_sharp_comment` from label `morecomments`, with `ch` the current character
(`none`: end of file; byte 255 is taken for it since `Char` is signed) and `s` the bytes after it.
The flag says that `ch` has just been seen to follow, and line 476 skips nothing.  Result: the rest of
the stream and whether the comment was closed. -/
def commentLoop : Nat → Int → Option Nat → List Nat → Option (Bool × List Nat)
  | 0, _, _, _ => none
  | n + 1, val, ch, s =>
    match ch with
    | none => some (false, s)
    | some c =>
      if c = 255 then some (false, s)
      else if c = 124 then
        match s with
        | [] => commentLoop n val none []
        | c' :: s' =>
          if c' = 35 then (if val - 1 < 0 then some (true, s') else commentLoop n (val - 1) (some c') s')
          else commentLoop n val (some c') s'
      else if c = 35 then
        match s with
        | [] => commentLoop n val none []
        | c' :: s' =>
          if c' = 124 then commentLoop n (val + 1) s'.head? s'.tail
          else commentLoop n val (some c') s'
      else commentLoop n val s.head? s.tail

/-- reader.c:466-483 `read_sharp_comment`, after `#|`. -/
def read_sharp_comment (s : List Nat) : R × List Nat :=
  match commentLoop (2 * s.length + 2) 0 s.head? s.tail with
  | some (true, rest) => (.unbound, rest)
  | some (false, rest) => (.eof, rest)
  | none => (.ub, [])

/-- `isxdigit`. -/
def isxdigit (c : Nat) : Bool := (48 ≤ c && c ≤ 57) || (65 ≤ c && c ≤ 70) || (97 ≤ c && c ≤ 102)

/-- reader.c:495-497: at most 64 hexadecimal digits go to `buf`. -/
def hexTake : Nat → List Nat → List Nat × List Nat
  | 0, s => ([], s)
  | _ + 1, [] => ([], [])
  | n + 1, c :: s => if isxdigit c then let r := hexTake n s; (c :: r.1, r.2) else ([], c :: s)

/-- reader.c:507-508: the value of a hexadecimal digit. -/
def xval (c : Nat) : Nat := let c := to_upper c; if c ≤ 57 then c - 48 else c - 65 + 10

/-- reader.c:506-514: the loop over the digits, last digit first; `none`: a write outside the
bignum. -/
def hexLoop : List Nat → (p q : Nat) → List Word → Option (List Word)
  | [], _, _, bv => some bv
  | c :: s, p, q, bv =>
    let x : Word := BitVec.ofNat 64 (xval c)
    if p / 63 ≥ bv.length then none else
    let bv := bv.set (p / 63) (bv.getD (p / 63) 0 ||| ((x <<< q) &&& MASK))
    let hi := x >>> (63 - q)
    if q ≥ 60 ∧ hi ≠ 0 then
      if p / 63 + 1 ≥ bv.length then none
      else hexLoop s (p + 4) ((q + 4) % 63) (bv.set (p / 63 + 1) hi)
    else hexLoop s (p + 4) ((q + 4) % 63) bv

/-- C's `sscanf("%lx")` on hexadecimal digits (fewer than 62 bits here). -/
def sscanfHex : List Nat → Nat → Nat
  | [], acc => acc
  | c :: s, acc => sscanfHex s (acc * 16 + xval c)

/-- reader.c:485-517 `read_sharp_hex`, after `#x`; `val` is the number between `#` and `x`, left as it
is when there are no digits.  `none`: undefined behaviour. -/
def read_sharp_hex (val : Nat) (s : List Nat) : Option (Num × List Nat) :=
  let r := hexTake 64 s
  let buf := r.1
  let i := buf.length
  let b0 := buf.headD 0
  let j : Int := 4 * (i : Int) - (if b0 < 50 then 3 else if b0 < 52 then 2 else if b0 < 56 then 1 else 0)
  if j < 62 then
    some (makeint (BitVec.ofNat 64 (if i = 0 then val else sscanfHex buf 0)), r.2)
  else
    match hexLoop buf.reverse 0 0 (List.replicate ((j.toNat + 62) / 63) 0) with
    | none => none
    | some bv => some (normalize_bignum bv, r.2)

/-- reader.c:525-526: at most 32 octal digits go to `buf`. -/
def octTake : Nat → List Nat → List Nat × List Nat
  | 0, s => ([], s)
  | _ + 1, [] => ([], [])
  | n + 1, c :: s => if 48 ≤ c ∧ c < 56 then let r := octTake n s; (c :: r.1, r.2) else ([], c :: s)

/-- The number written by octal digits. -/
def octVal : List Nat → Nat → Nat
  | [], acc => acc
  | c :: s, acc => octVal s (acc * 8 + (c - 48))

/-- reader.c:518-530 `read_sharp_octal`, after `#o`: `sscanf("%lo")` gives the largest unsigned long
when the number does not fit; with 32 digits `buf[i]=0` writes past the end of `buf` (`none`). -/
def read_sharp_octal (s : List Nat) : Option (Num × List Nat) :=
  let r := octTake 32 s
  if r.1.length ≥ 32 then none
  else some (makeint (BitVec.ofNat 64 (min (octVal r.1 0) (2 ^ 64 - 1))), r.2)

/-! ### the reader -/

/-- What `nextch` finds. -/
inductive Next where
  | ch (c : Nat) (rest : List Nat)
  | eof (rest : List Nat)
  | ub
deriving DecidableEq, Repr

mutual
/-- reader.c:198-220 `nextch` and `skip`.  `Char` is signed: byte 255 is taken for the end of file
(the syntax table is indexed with -1, which is the zero top byte of the length word of the table), and
bytes 128 to 254 index the syntax table out of its bounds. -/
def nextch : List Nat → Next
  | [] => .eof []
  | c :: s =>
    if c = 255 then .eof s
    else if c ≥ 128 then .ub
    else if syntaxtype c = .white then nextch s
    else if c = 59 then skipLine s
    else .ch c s
/-- reader.c:208-211: a comment to the end of the line. -/
def skipLine : List Nat → Next
  | [] => .eof []
  | c :: s => if c = 255 then .eof s else if c = 10 then nextch s else skipLine s
end

/-- reader.c:629-633: the number between `#` and the dispatching character (digits are separated by
`nextch`). -/
def sharpNum : Nat → Nat → List Nat → Nat × Next
  | 0, val, _ => (val, .ub)
  | n + 1, val, s =>
    match nextch s with
    | .ch c s' => if 48 ≤ c ∧ c ≤ 57 then sharpNum n (val * 10 + (c - 48)) s' else (val, .ch c s')
    | r => (val, r)

mutual
/-- reader.c:968-1012 `read1`.  The first argument bounds the nesting of calls; each call consumes at
least one byte, so more than the length of the stream is enough (`ub` never comes from it). -/
def read1 (base : Nat) : Nat → List Nat → R × List Nat
  | 0, _ => (.ub, [])
  | _ + 1, [] => (.eof, [])
  | n + 1, c :: s =>
    match syntaxtype c with
    | .illegal => (.err, s)
    | .white => read1 base n s
    | .constituent =>
      finish base (step8 ⟨[to_upper c], false, if c = 58 then some 0 else none⟩ s)
    | .sglescape =>
      match s with
      | [] => finish base (step8 ⟨[255], true, none⟩ [])
      | c' :: s' => finish base (step8 ⟨[c'], true, none⟩ s')
    | .multiescape => finish base (step9 ⟨[], true, none⟩ s)
    | .termmacro | .nontermacro =>
      if c = 40 then readTail base n s
      else if c = 41 then (.unbound, s)
      else if c = 34 then let r := readstring s; (.val (.str r.1), r.2)
      else if c = 59 then (.unbound, readcomment s)
      else if c = 39 then
        match read1 base n s with
        | (.val t, rest) => (.val (.cons QUOTE (.cons t NIL)), rest)
        | (.unbound, rest) => (.ub, rest)
        | r => r
      else if c = 35 then readsharp base n s
      else (.other, s)
/-- reader.c:780-811 `read_delimited_list` with `)`, from the call of `nextch` on: the list read from
here on (the elements are pushed and then consed in reverse, which builds the same list). -/
def readTail (base : Nat) : Nat → List Nat → R × List Nat
  | 0, _ => (.ub, [])
  | n + 1, s =>
    match nextch s with
    | .ub => (.ub, [])
    | .eof rest => (.val NIL, rest)
    | .ch c s' =>
      if c = 41 then (.val NIL, s')
      else
        let elem : R × List Nat := read1 base n (c :: s')
        if c = 46 then
          match s' with
          | [] => (.err, [])
          | d :: s'' =>
            if d ≥ 128 then (if d = 255 then (.err, s'') else (.ub, []))
            else if syntaxtype d = .constituent then
              match finish base (step8 ⟨[46], false, none⟩ s') with
              | (.val t, rest) => match readTail base n rest with
                | (.val l, rest') => (.val (.cons t l), rest')
                | r => r
              | r => r
            else if syntaxtype d = .white then
              match read1 base n s' with
              | (.val t, rest) => match nextch rest with
                | .ch e rest' => if e = 41 then (.val t, rest') else (.err, rest')
                | .eof rest' => (.err, rest')
                | .ub => (.ub, [])
              | (.unbound, rest) => (.ub, rest)
              | (.eof, rest) => (.err, rest)
              | r => r
            else (.err, s')
        else
          match elem with
          | (.val t, rest) => match readTail base n rest with
            | (.val l, rest') => (.val (.cons t l), rest')
            | r => r
          | (.unbound, rest) => readTail base n rest
          | (.eof, rest) => readTail base n rest
          | r => r
/-- reader.c:616-646 `readsharp`, after `#`; the macros modelled are `#'` (reader.c:532-537), `#|`, `#x`
and `#o`. -/
def readsharp (base : Nat) : Nat → List Nat → R × List Nat
  | 0, _ => (.ub, [])
  | n + 1, s =>
    match s with
    | [] => (.unbound, [])
    | c :: s1 =>
      if c = 255 then (.unbound, s1)
      else
        let d : Nat × Next :=
          if 48 ≤ c ∧ c ≤ 57 then sharpNum s.length (c - 48) s1 else (0, .ch c s1)
        match d.2 with
        | .ub => (.ub, [])
        | .eof rest => (.unbound, rest)
        | .ch e rest =>
          if e ≥ 128 then (.ub, [])
          else if e = 39 then
            match read1 base n rest with
            | (.val t, rest') => (.val (.cons FUNCTION (.cons t NIL)), rest')
            | (.unbound, rest') => (.ub, rest')
            | (.eof, rest') => (.ub, rest')
            | r => r
          else if e = 124 then read_sharp_comment rest
          else if to_upper e = 88 then
            match read_sharp_hex d.1 rest with
            | some (v, rest') => (.val (.int v), rest')
            | none => (.ub, [])
          else if to_upper e = 79 then
            match read_sharp_octal rest with
            | some (v, rest') => (.val (.int v), rest')
            | none => (.ub, [])
          else (.other, rest)
end

/-- reader.c:1022: `while (ch==')') ch=nextch(ctx,f);` and the `unreadch`. -/
def skipParens : Nat → List Nat → Next
  | 0, _ => .ub
  | n + 1, s =>
    match nextch s with
    | .ch c s' => if c = 41 then skipParens n s' else .ch c s'
    | r => r

/-- reader.c:1014-1032 `reader`, the Lisp function `read` but for its treatment of the end of file. -/
def reader (base : Nat) (s : List Nat) : R × List Nat :=
  match skipParens (s.length + 1) s with
  | .ub => (.ub, [])
  | .eof rest => (.eof, rest)
  | .ch c s' =>
    match read1 base (s'.length + 2) (c :: s') with
    | (.unbound, rest) => (.val NIL, rest)
    | r => r

end Eus.Rd
