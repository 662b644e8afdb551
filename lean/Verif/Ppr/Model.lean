import Verif.Rd.Model
set_option autoImplicit false
/-
The pretty printer (lisp/l/pprint.l) on trees of conses, and `print-size` (lisp/c/lispio.c) by which it chooses the
lines.  Objects and texts are those of `Verif.Rd`; vectors and arrays are not modelled.

What is written does not depend on `print-size` and `fboundp` but for the lines and the indentation: both are
parameters (`Layout`), one instance of which is the `print-size` of the code (`prntsize`).
-/
namespace Eus.Ppr
open Eus.Rd Eus.Num

/-- `(print-size x lim)` (`none`: undefined behaviour) and `(fboundp symbol)`. -/
structure Layout where
  size : T → Int → Option Nat
  fbound : T → Bool

/-! ### print-size -/

/-- The length of what `sprintf(buf,"%ld",v)` writes. -/
def decimals (v : Int) : Nat := (if v < 0 then 1 else 0) + (Nat.toDigits 10 v.natAbs).length

/-- lispio.c:128-131, 141-142, 160: an object that is not a list; `char buf[16]` takes 15 characters and the
terminating zero. -/
def atomSize (t : T) (n : Nat) : Option Nat :=
  match t with
  | .int (.fix w) => if decimals w.toInt + 1 ≤ 16 then some (n + decimals w.toInt) else none
  | .int (.big _) => some (n + 18)
  | .str s => some (n + s.length)
  | .sym s => some (n + s.length)
  | .key s => some (n + s.length)
  | .pkgsym _ s _ => some (n + s.length)
  | .float _ => some (n + 7)
  | .ratio _ => some (n + 17)
  | .cons _ _ => some n

/-- `islist(ccdr(s)) && ccdr(ccdr(s))==NIL` (lispio.c:133) -/
def isSingle : T → Bool
  | .cons _ r => r == NIL
  | _ => false

mutual
/-- lispio.c:122-160 `prntsize(s,lim)`, `n` being `prsize`. -/
def prnt (lim : Int) : T → Nat → Option Nat
  | .cons a d, n =>
    if lim ≤ n then some n
    else if a = QUOTE ∧ isSingle d then prntCar lim d (n + 1)
    else
      match prnt lim a (n + 2) with
      | none => none
      | some k => if lim < k then some k else prntRest lim d k
  | t, n => if lim ≤ n then some n else atomSize t n
/-- lispio.c:134 `prntsize(ccar(ccdr(s)))` -/
def prntCar (lim : Int) : T → Nat → Option Nat
  | .cons a _, n => prnt lim a n
  | _, n => some n
/-- lispio.c:138-142, what follows the first element. -/
def prntRest (lim : Int) : T → Nat → Option Nat
  | .cons a d, n =>
    match prnt lim a (n + 1) with
    | none => none
    | some k => if lim < k then some k else prntRest lim d k
  | t, n => if t = NIL then some n
    else (if lim ≤ (n + 1 : Nat) then some (n + 1) else atomSize t (n + 1)).map (· + 2)
end

/-! ### pprint -/

/-- What keeps a text from being written: a buffer overflow in `print-size`, `car` or `cdr` of something that is not a
list, or something the model of the printer does not print. -/
inductive Fail where
  | overflow | notList | printer
deriving DecidableEq, Repr

/-- The text written. -/
abbrev Out := Except Fail (List Nat)

/-- One text after the other. -/
def cat : Out → Out → Out
  | .ok x, .ok y => .ok (x ++ y)
  | .ok _, .error e => .error e
  | .error e, _ => .error e

/-- `(prin1 x file)` -/
def prt (p : PCfg) (t : T) : Out :=
  match prinx p t with
  | some s => .ok s
  | none => .error .printer

/-- `(princ x file)` (printer.c:83-140 with `slashflag` 1): no bars and no quotes.  Lists are not modelled. -/
def princ (p : PCfg) : T → Out
  | .sym n => .ok (n.map fun c => if p.down then to_lower c else c)
  | .key n => .ok (58 :: n.map fun c => if p.down then to_lower c else c)
  | .str s => .ok s
  | .int n => prt p (.int n)
  | _ => .error .printer

/-- `(terpri file) (spaces n file)` -/
def nl (n : Nat) : Out := .ok (10 :: List.replicate n 32)

/-- The symbols pprint knows. -/
inductive Form where
  | defn | lam | set | other
deriving DecidableEq, Repr

/-- The codes of a name. -/
def nm (s : String) : List Nat := s.toList.map Char.toNat

/-- pprint.l:58-88, the `case`. -/
def formOf (a : T) : Form :=
  if a ∈ [T.sym (nm "DEFUN"), .sym (nm "DEFCLASS"), .sym (nm "DEFMACRO")] then .defn
  else if a ∈ [T.sym (nm "LAMBDA"), .sym (nm "MACRO")] then .lam
  else if a ∈ [T.sym (nm "SET"), .sym (nm "SETQ")] then .set
  else .other

/-- `listp` -/
def listp : T → Bool
  | .cons _ _ => true
  | t => t == NIL

/-- `(symbolp (car sexp))` and `(fboundp (car sexp))` -/
def isFn (L : Layout) : T → Bool
  | .sym n => L.fbound (.sym n)
  | .key n => L.fbound (.key n)
  | .pkgsym a b c => L.fbound (.pkgsym a b c)
  | _ => false

/-- `(< (print-size sexp (- platen pltn)) (- platen pltn))` -/
def fits (L : Layout) (platen : Int) (t : T) (pltn : Nat) : Except Fail Bool :=
  match L.size t (platen - pltn) with
  | some n => .ok (decide ((n : Int) < platen - pltn))
  | none => .error .overflow

/-- `(print-size x)`, lispio.c:168: the limit is then 256. -/
def size (L : Layout) (t : T) : Except Fail Nat :=
  match L.size t 256 with
  | some n => .ok n
  | none => .error .overflow

/-- `(and (cdr sexp) (princ " " file))` -/
def sep (d : T) : Out := .ok (if d = NIL then [] else [32])

mutual
/-- pprint.l:30-97 `pprint1`, on atoms and conses. -/
def pp (L : Layout) (p : PCfg) (platen : Int) : T → Nat → Out
  | .cons a d, pltn =>
    match fits L platen (.cons a d) pltn with
    | .error e => .error e
    | .ok true => prt p (.cons a d)
    | .ok false =>
      if a = QUOTE then cat (.ok [39]) (ppCar L p platen d pltn)
      else cat (.ok [40]) (cat (pp L p platen a (if listp a then pltn + 1 else pltn))
        (match formOf a with
          | .defn => ppDefun L p platen d pltn
          | .lam => match size L a with
            | .ok n => cat (.ok [32]) (ppArgs L p platen d (pltn + 3 + n) (pltn + 3))
            | .error e => .error e
          | .set => ppSet L p platen d pltn
          | .other => ppRest L p platen d (if isFn L a then pltn + 3 else pltn + 1)))
  | t, _ => prt p t
/-- pprint.l:37-38: `(setq sexp (cadr sexp)) (pprint1 sexp ...)` -/
def ppCar (L : Layout) (p : PCfg) (platen : Int) : T → Nat → Out
  | .cons x _, pltn => pp L p platen x pltn
  | t, _ => if t = NIL then prt p NIL else .error .notList
/-- pprint.l:60-66, for `(cdr sexp)`: the name and what follows. -/
def ppDefun (L : Layout) (p : PCfg) (platen : Int) : T → Nat → Out
  | .cons name r, pltn =>
    match size L name with
    | .ok n => cat (.ok [32]) (cat (princ p name) (cat (.ok [32]) (ppArgs L p platen r (pltn + 3 + n) (pltn + 3))))
    | .error e => .error e
  | t, _ =>
    if t = NIL then cat (.ok [32]) (cat (princ p NIL) (cat (.ok [32]) (cat (prt p NIL) (.ok [41]))))
    else .error .notList
/-- pprint.l:63-66, 69-72: the parameters, printed by `pparg` (99-103), and the loop over the body. -/
def ppArgs (L : Layout) (p : PCfg) (platen : Int) : T → Nat → Nat → Out
  | .cons (.cons x y) body, indent, pltn =>
    match fits L platen (.cons x y) indent with
    | .error e => .error e
    | .ok true => cat (prt p (.cons x y)) (ppRest L p platen body pltn)
    | .ok false => cat (.ok [40]) (cat (ppargLoop L p platen (.cons x y) indent indent) (ppRest L p platen body pltn))
  | .cons t body, _, pltn => cat (prt p t) (ppRest L p platen body pltn)
  | t, _, _ => if t = NIL then cat (prt p NIL) (.ok [41]) else .error .notList
/-- pprint.l:104-118, the loop of `pparg`; `pl` is `PLTN.`. -/
def ppargLoop (L : Layout) (p : PCfg) (platen : Int) : T → Nat → Nat → Out
  | .cons a d, pltn, pl =>
    match size L a with
    | .error e => .error e
    | .ok n =>
      if ((pl + n + 1 : Nat) : Int) < platen then
        cat (prt p a) (cat (sep d) (ppargLoop L p platen d pltn (pl + n + 1)))
      else cat (nl pltn) (cat (pp L p platen a pltn) (cat (sep d) (ppargLoop L p platen d pltn pltn)))
  | t, _, _ => if t = NIL then .ok [41] else .error .notList
/-- pprint.l:74-86, for `(cdr sexp)`: a variable and its value on each line. -/
def ppSet (L : Layout) (p : PCfg) (platen : Int) : T → Nat → Out
  | .cons v (.cons x d), pltn =>
    match size L v with
    | .error e => .error e
    | .ok n => cat (nl (pltn + 3)) (cat (princ p v) (cat (.ok [32]) (cat (pp L p platen x (pltn + n + 4))
        (ppSet L p platen d pltn))))
  | .cons _ t, _ => if t = NIL then .ok [41] else .error .notList
  | t, _ => if t = NIL then .ok [41] else .error .notList
/-- pprint.l:90-97, for `(cdr sexp)`: every other element on its line, a dotted end, and the parenthesis. -/
def ppRest (L : Layout) (p : PCfg) (platen : Int) : T → Nat → Out
  | .cons a d, pltn => cat (nl pltn) (cat (pp L p platen a pltn) (ppRest L p platen d pltn))
  | t, pltn => if t = NIL then .ok [41] else cat (nl pltn) (cat (.ok [46, 32]) (cat (prt p t) (.ok [41])))
end

/-- pprint.l:22-24 `(pprint sexp file tab platen)` -/
def pprint (L : Layout) (p : PCfg) (t : T) (tab : Nat := 0) (platen : Int := 75) : Out :=
  cat (pp L p platen t tab) (.ok [10])

/-- The `print-size` of the code, with the functions there are. -/
def real (fbound : T → Bool) : Layout := ⟨fun t lim => prnt lim t 0, fbound⟩

end Eus.Ppr
