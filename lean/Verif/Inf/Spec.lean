import Verif.Inf.Model
import Mathlib.Algebra.Ring.Defs
import Mathlib.Algebra.BigOperators.Group.List.Basic
import Mathlib.Data.Int.Cast.Basic
set_option autoImplicit false
/-
Infix notation: the usual grammar, with the value of everything it derives.

`Prim`: variables, integers, parentheses, calls `f(a b …)`, array elements `a[i j …]`.  `Fac`: a primary, or one primary to the power of another.
`Term`: factors joined by `*` and `/`, grouped from the left.  `Sum`: terms joined by `+` and `-`, grouped from the left, perhaps with a sign in front.
`Rel`: a sum, or two sums compared.  `Args`: the arguments of a call, one after the other without commas.
-/
namespace Eus.Inf

/-- Symbols that are not variables or functions in infix notation. -/
def reserved : List String := ["+", "-", "*", "/", "**", "aref", "=", "==", "!=", "/=", "<", "<=", ">", ">="]

/-- An integer, perhaps in parentheses and with plus signs. -/
inductive Lit : List Tok → Int → Prop
  | int (z : Int) : Lit [.int z] z
  | paren {ts : List Tok} {z : Int} : Lit ts z → Lit [.lst ts] z
  | plus {ts : List Tok} {z : Int} : Lit ts z → Lit (.sym "+" :: ts) z

/-- What can follow an argument without joining it: the end, a name or a number. -/
def Sep : List Tok → Prop
  | [] => True
  | .sym s :: _ => s ∉ reserved
  | .int _ :: _ => True
  | .lst _ :: _ => False

section
variable {V : Type} [Ring V] (I : Interp V) (ρ : String → V)

mutual
inductive Prim : List Tok → V → Prop
  | var (s : String) : s ∉ reserved → Prim [.sym s] (ρ s)
  | int (z : Int) : Prim [.int z] (z : V)
  | paren {ts : List Tok} {v : V} : Sum ts v → Prim [.lst ts] v
  | call (f : String) {ts : List Tok} {vs : List V} : f ∉ reserved → Args ts vs → vs ≠ [] → Prim [.sym f, .lst ts] (I.fn f vs)
  | aref (s : String) {ts : List Tok} {vs : List V} : s ∉ reserved → Args ts vs →
      Prim [.sym s, .lst (.sym "aref" :: ts)] (I.fn "aref" (ρ s :: vs))
inductive Fac : List Tok → V → Prop
  | prim {ts : List Tok} {v : V} : Prim ts v → Fac ts v
  | pow {ts us : List Tok} {v w : V} : Prim ts v → Prim us w → (∀ z, Lit us z → 0 ≤ z) →
      Fac (ts ++ .sym "**" :: us) (I.fn "expt" [v, w])
inductive Term : List Tok → V → Prop
  | fac {ts : List Tok} {v : V} : Fac ts v → Term ts v
  | mul {ts us : List Tok} {v w : V} : Term ts v → Fac us w → Term (ts ++ .sym "*" :: us) (v * w)
  | div {ts us : List Tok} {v w : V} : Term ts v → Fac us w → Term (ts ++ .sym "/" :: us) (I.fn "/" [v, w])
inductive Sum : List Tok → V → Prop
  | term {ts : List Tok} {v : V} : Term ts v → Sum ts v
  | pos {ts : List Tok} {v : V} : Term ts v → Sum (.sym "+" :: ts) v
  | neg {ts : List Tok} {v : V} : Term ts v → Sum (.sym "-" :: ts) (-v)
  | add {ts us : List Tok} {v w : V} : Sum ts v → Term us w → Sum (ts ++ .sym "+" :: us) (v + w)
  | sub {ts us : List Tok} {v w : V} : Sum ts v → Term us w → Sum (ts ++ .sym "-" :: us) (v - w)
inductive Args : List Tok → List V → Prop
  | nil : Args [] []
  | cons {ts us : List Tok} {v : V} {vs : List V} : Sum ts v → Args us vs → Sep us → Args (ts ++ us) (v :: vs)
end

/-- Relations: what is written between the two sides, and the Lisp function. -/
inductive RelName : String → String → Prop
  | eq : RelName "==" "="
  | ne : RelName "!=" "/="
  | ne' : RelName "/=" "/="
  | lt : RelName "<" "<"
  | le : RelName "<=" "<="
  | gt : RelName ">" ">"
  | ge : RelName ">=" ">="

inductive Rel : List Tok → V → Prop
  | sum {ts : List Tok} {v : V} : Sum I ρ ts v → Rel ts v
  | rel {ts us : List Tok} {v w : V} {o f : String} : RelName o f → Sum I ρ ts v → Sum I ρ us w →
      Rel (ts ++ .sym o :: us) (I.fn f [v, w])

/-- The Lisp functions mean what they should: `+`, `-` and `*` are those of a ring, `/` with more than two arguments divides again and again, and `expt` with a natural number is the power. -/
structure Lawful : Prop where
  int (z : Int) : I.int z = (z : V)
  add (l : List V) : I.fn "+" l = l.sum
  neg (x : V) : I.fn "-" [x] = -x
  mul (l : List V) : I.fn "*" l = l.prod
  div (x y : V) (l : List V) : l ≠ [] → I.fn "/" (x :: l ++ [y]) = I.fn "/" [I.fn "/" (x :: l), y]
  expt (x : V) (n : Nat) : I.fn "expt" [x, (n : V)] = x ^ n
end

end Eus.Inf
