import Verif.Rd.Model
set_option autoImplicit false
/-
lisp/c/lispio.c:435-560, `format` (`XFORMAT`).  Strings are lists of bytes.

Simplifications: the destination is a stream to which bytes are appended, or NIL and then the result is
the string of the bytes appended (the growing buffer of a string stream is the subject of `Verif.Io`);
`flushstream` after a newline succeeds.  What `prinx`, `printflt` and `sprintf` of a floating number write
is a parameter (`Env`).  The control string is not modified while `format` runs.
-/
namespace Eus.Fmt
open Eus.Num Eus.Rd

/-- An argument: an integer, a floating number, a ratio (numerator and denominator), another object. -/
inductive Arg (F O : Type) where
  | int (n : Num)
  | flt (x : F)
  | ratio (n d : Num)
  | obj (o : O)
deriving DecidableEq

/-- What `prinx` does: it appends `out`; `recount` is `some k` if a print method called `format` itself,
which sets `written_count` to 0 (lispio.c:473, 497, 503), and `k` bytes were written since; `leaves` if
it was left by an error or a throw after writing `out`. -/
structure PR where
  out : List Nat
  recount : Option Nat
  leaves : Bool
deriving DecidableEq

/-- The environment. -/
structure Env (F O : Type) where
  /-- `*print-case*` is `:downcase`. -/
  down : Bool
  /-- printer.c `prinx`; the flag is `slashflag`. -/
  prinx : Bool → Arg F O → PR
  /-- printer.c `printflt`. -/
  printflt : F → List Nat
  /-- The conversions of eus.h:826-830 `ckfltval`. -/
  ofNum : Num → F
  ofRatio : Num → Num → F
  /-- lispio.c:529 and 531: the tests of `~G`. -/
  isZero : F → Bool
  extreme : F → Bool
  /-- C's `sprintf` with `%*.*f` (`false`) or `%*.*e` (`true`). -/
  sprintf : Bool → Int → Int → F → List Nat

variable {F O : Type}

/-- The errors. -/
inductive Err where
  | mismatchArg | formatString | noInt | noNumber
deriving DecidableEq, Repr

/-- The state: bytes appended so far, `ctx->slashflag`, `written_count`, the arguments not taken yet. -/
structure St (F O : Type) where
  out : List Nat
  slash : Bool
  count : Nat
  args : List (Arg F O)

/-- How a step ends; `ub` is undefined behaviour: a write outside an array, a signed overflow. -/
inductive Res (F O : Type) where
  | ok (s : St F O)
  | err (e : Err) (s : St F O)
  | exit (s : St F O)
  | ub

/-- What follows a step. -/
def Res.andThen (r : Res F O) (k : St F O → Res F O) : Res F O :=
  match r with
  | .ok s => k s
  | r => r

/-- eusstream.c:204-217 `writech`, 219-241 `writestr`. -/
def writestr (s : St F O) (t : List Nat) : St F O := { s with out := s.out ++ t, count := s.count + t.length }

/-- C's `isdigit`. -/
def isdigit (c : Nat) : Bool := 48 ≤ c && c ≤ 57

/-- The largest `int`. -/
def intMax : Nat := 2147483647

/-- How a part of a directive is read: the value, the current character `cch` and the rest of the control
string; or the control string ends (`nextcch`, lispio.c:435); or undefined behaviour. -/
inductive Rd' (α : Type) where
  | done (v : α) (cch : Nat) (rest : List Nat)
  | eos
  | ub

/-- lispio.c:481-483, the digits of a parameter; `none` of signed overflow. -/
def readDigits : Nat → Nat → List Nat → Rd' Nat
  | v, c, [] =>
    if isdigit c then (if v * 10 + (c - 48) > intMax then .ub else .eos) else .done v c []
  | v, c, c' :: rest =>
    if isdigit c then
      (if v * 10 + (c - 48) > intMax then .ub else readDigits (v * 10 + (c - 48)) c' rest)
    else .done v c (c' :: rest)

/-- lispio.c:485 `if (cch==',') cch=nextcch();`. -/
def skipComma (c : Nat) (rest : List Nat) : Rd' Unit :=
  if c = 44 then (match rest with | [] => .eos | c' :: r => .done () c' r) else .done () c rest

/-- lispio.c:479-485: the numeric parameters; `ps` are `param[0..px-1]`, and `param[10]` does not exist.
The first argument bounds the rounds. -/
def readParams : Nat → List Nat → Nat → List Nat → Rd' (List Nat)
  | 0, _, _, _ => .ub
  | n + 1, ps, c, rest =>
    if isdigit c then
      (if ps.length ≥ 10 then .ub else
        match readDigits 0 c rest with
        | .ub => .ub
        | .eos => .eos
        | .done v c rest =>
          match skipComma c rest with
          | .ub => .ub
          | .eos => .eos
          | .done _ c rest => readParams n (ps ++ [v]) c rest)
    else .done ps c rest

/-- lispio.c:486 `if (islower(cch)) cch=toupper(cch);`. -/
def upc (c : Nat) : Nat := to_upper c

/-- eus.h:791-795 `ckintval`: fixnums, bignums of one word, and of two words with a second word below 2.
`none`: the error E_NOINT.  (`intval` of such a bignum is `bigintval`, eus.h:796-801.) -/
def ckintval : Arg F O → Option Int
  | .int (.fix w) => some w.toInt
  | .int (.big [w]) => some w.toInt
  | .int (.big [w, u]) =>
    if u.toInt < 2 then some ((u <<< 63) ||| w).toInt else none
  | _ => none

/-- Conversion of `eusinteger_t` to `int`. -/
def toInt32 (z : Int) : Int := (BitVec.ofInt 32 z).toInt

/-- eus.h:826-830 `ckfltval`. -/
def ckfltval (E : Env F O) : Arg F O → Option F
  | .flt x => some x
  | .int n => some (E.ofNum n)
  | .ratio n d => some (E.ofRatio n d)
  | .obj _ => none

/-- printer.c:219-285 `printnum` with `printratio`. -/
def printnumA (E : Env F O) (base : Nat) (w p : Int) : Arg F O → Option (Option (List Nat))
  | .int n => some (printnum base E.down n w p)
  | .flt x => some (some (E.printflt x))
  | .ratio n d => some ((printnum base E.down n 0 0).bind fun a =>
      (printnum base E.down d 0 0).map fun b => a ++ 47 :: b)
  | .obj _ => none

/-- lispio.c:437 `nextfarg`. -/
def nextfarg (s : St F O) (k : Arg F O → St F O → Res F O) : Res F O :=
  match s.args with
  | [] => .err .mismatchArg s
  | a :: as => k a { s with args := as }

/-- lispio.c:497-499 and 503-505: `prinx` and the blanks that fill the field; afterwards `slashflag` is
set to `osf`. -/
def field (E : Env F O) (w : Int) (a : Arg F O) (s : St F O) (osf : Bool) : Res F O :=
  let r := E.prinx s.slash a
  let s1 : St F O := { s with out := s.out ++ r.out, count := r.recount.getD r.out.length }
  if r.leaves then .exit s1
  else .ok { writestr s1 (List.replicate (w - s1.count).toNat 32) with slash := osf }

/-- lispio.c:507-518: the directives `~D`, `~X`, `~O`. -/
def number (E : Env F O) (base : Nat) (w p : Int) (s : St F O) : Res F O :=
  nextfarg s fun a s => match printnumA E base w p a with
    | none => .err .noNumber s
    | some none => .ub
    | some (some t) => .ok (writestr s t)

/-- lispio.c:523-524: `sprintf` into `buf[256]`. -/
def float (t : List Nat) (s : St F O) : Res F O :=
  if t.length > 255 then .ub else .ok (writestr s t)

/-- lispio.c:537: zeros at the end of the text are dropped, but not the one after the point; the text is
given reversed. -/
def trimRev : List Nat → List Nat
  | 48 :: c :: d :: r => if c = 46 then 48 :: c :: d :: r else trimRev (c :: d :: r)
  | l => l

/-- lispio.c:491-547, the switch. `p0`, `p1` are `param[0]`, `param[1]`. -/
def direct (E : Env F O) (d : Nat) (p0 p1 : Int) (s : St F O) : Res F O :=
  if d = 65 then nextfarg s fun a s' => field E p0 a { s' with slash := true } s.slash
  else if d = 83 then nextfarg s fun a s' => field E p0 a s' s'.slash
  else if d = 68 then number E 10 p0 p1 s
  else if d = 88 then number E 16 p0 p1 s
  else if d = 79 then number E 8 p0 p1 s
  else if d = 67 then nextfarg s fun a s => match ckintval a with
    | none => .err .noInt s
    | some c => .ok (writestr s [(c % 256).toNat])
  else if d = 70 then nextfarg s fun a s => match ckfltval E a with
    | none => .err .noNumber s
    | some x => float (E.sprintf false p0 p1 x) s
  else if d = 69 then nextfarg s fun a s => match ckfltval E a with
    | none => .err .noNumber s
    | some x => float (E.sprintf true p0 p1 x) s
  else if d = 71 then nextfarg s fun a s => match ckfltval E a with
    | none => .err .noNumber s
    | some x =>
      if E.isZero x then .ok (writestr s [48, 46, 48])
      else if E.extreme x then float (E.sprintf true p0 p1 x) s
      else
        let t := E.sprintf false p0 p1 x
        if t.length > 255 then .ub else .ok (writestr s (trimRev t.reverse).reverse)
  else if d = 37 ∨ d = 38 then .ok (writestr s (List.replicate (p0 + 1).toNat 10))
  else if d = 126 then .ok (writestr s [126])
  else if d = 84 then .ok (writestr s [9])
  else .ok s

/-- lispio.c:478, 482: `param[0]` and `param[1]`, with their defaults. -/
def p0 (ps : List Int) : Int := ps.getD 0 0
def p1 (ps : List Int) : Int := ps.getD 1 1

/-- lispio.c:476-549: a directive, after the tilde; and the rest of the loop is `k`. -/
def directive (E : Env F O) (ctl : List Nat) (s : St F O) (k : List Nat → St F O → Res F O) : Res F O :=
  match ctl with
  | [] => .err .formatString s
  | c :: rest =>
    match readParams (rest.length + 1) [] c rest with
    | .ub => .ub
    | .eos => .err .formatString s
    | .done ps c rest =>
      let ps := ps.map Int.ofNat
      if upc c = 86 then nextfarg s fun a s =>
        match ckintval a with
        | none => .err .noInt s
        | some v =>
          if ps.length ≥ 10 then .ub else
          match rest with
          | [] => .err .formatString s
          | c :: rest =>
            (direct E (upc c) (p0 (ps ++ [toInt32 v])) (p1 (ps ++ [toInt32 v])) s).andThen (k rest)
      else (direct E (upc c) (p0 ps) (p1 ps) s).andThen (k rest)

/-- lispio.c:474-551: the loop over the control string; the first argument bounds the rounds. -/
def run (E : Env F O) : Nat → List Nat → St F O → Res F O
  | _, [], s => .ok s
  | 0, _ :: _, _ => .ub
  | n + 1, c :: rest, s =>
    if c = 126 then directive E rest s (run E n)
    else run E n rest (writestr s [c])

/-- lispio.c:440-560 `format`: the result has the bytes appended and the `slashflag` afterwards. -/
def format (E : Env F O) (slash : Bool) (ctl : List Nat) (args : List (Arg F O)) : Res F O :=
  run E ctl.length ctl ⟨[], slash, 0, args⟩

end Eus.Fmt
