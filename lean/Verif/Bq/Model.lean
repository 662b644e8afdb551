set_option autoImplicit false
/-
Backquote: lisp/l/readmacro.l:16-41, and as much of evaluation as the forms it makes need.
-/
namespace Eus.Bq

/-- Symbols: the ones the code knows by name, and others. -/
inductive Sy where
  | comma | commaAt | quote | cons | list | append | user (n : Nat)
deriving DecidableEq

/-- Objects: NIL, symbols, other atoms (numbers, strings), vectors with a list of their elements, conses. -/
inductive Sx where
  | nil
  | sym (s : Sy)
  | num (n : Int)
  | vec (elements : Sx)
  | cons (a d : Sx)
deriving DecidableEq

open Sx

/-- `(list 'quote x)` -/
def quoted (x : Sx) : Sx := cons (sym .quote) (cons x nil)

/-- readmacro.l:31-34 `conscons` -/
def conscons (x y : Sx) : Sx :=
  if y = nil then cons (sym .list) (cons x nil) else cons (sym .cons) (cons x (cons y nil))

/-- readmacro.l:19-29 `conv-bq` -/
def convBq : Sx → Sx
  | nil => nil
  | sym s => quoted (sym s)
  | num n => quoted (num n)
  | vec v => quoted (vec v)
  | cons nil d => conscons (quoted nil) (convBq d)
  | cons (sym s) d => if s = .comma then d else conscons (quoted (sym s)) (convBq d)
  | cons (num n) d => conscons (quoted (num n)) (convBq d)
  | cons (vec v) d => conscons (quoted (vec v)) (convBq d)
  | cons (cons aa ad) d =>
    if aa = sym .comma then conscons ad (convBq d)
    else if aa = sym .commaAt then cons (sym .append) (cons ad (cons (convBq d) nil))
    else conscons (convBq (cons aa ad)) (convBq d)

/-- What is written, to be read: atoms, lists (dotted pairs), `,form`, `,@form`, a backquoted form, a vector. -/
inductive Txt where
  | atom (x : Sx)
  | cons (a d : Txt)
  | comma (t : Txt)
  | commaAt (t : Txt)
  | bq (t : Txt)
  | vec (elements : Txt)

/-- readmacro.l:17-18, 36-39 `read-backquote`, `read-comma`: what is read -/
def Txt.read : Txt → Sx
  | .atom x => x
  | .cons a d => Sx.cons a.read d.read
  | .comma t => Sx.cons (sym .comma) t.read
  | .commaAt t => Sx.cons (sym .commaAt) t.read
  | .bq t => convBq t.read
  | .vec t => Sx.vec t.read

/-- Outcomes; `unspec`: see `fill` in Spec. -/
inductive Res (S α : Type) where
  | ok (v : α) (s : S)
  | err
  | unspec

def Res.bind {S α β : Type} (r : Res S α) (f : α → S → Res S β) : Res S β :=
  match r with
  | .ok v s => f v s
  | .err => .err
  | .unspec => .unspec

/-- lists.c:197-211 `APPEND`, of two arguments: the first one may end in an atom that is dropped. -/
def conses (r : Sx) : Sx → Sx
  | cons a d => cons a (conses r d)
  | _ => r

def append (a r : Sx) : Option Sx :=
  match a with
  | nil => some r
  | cons _ _ => some (conses r a)
  | _ => none

/-- A list of objects as an object. -/
def ofList : List Sx → Sx
  | [] => nil
  | x :: xs => cons x (ofList xs)

section
variable {S : Type} (other : Sx → S → Res S Sx)

mutual
/-- Evaluation: constants, `quote`, calls of `cons`, `list`, `append` (arguments from left to right), and whatever other forms do. -/
def eval : Sx → S → Res S Sx
  | nil, s => .ok nil s
  | num n, s => .ok (num n) s
  | vec v, s => .ok (vec v) s
  | sym x, s => other (sym x) s
  | cons f a, s =>
    match f with
    | sym .quote => match a with | cons x nil => .ok x s | _ => .err
    | sym .cons => (evalArgs a s).bind fun vs s => match vs with | [x, y] => .ok (cons x y) s | _ => .err
    | sym .list => (evalArgs a s).bind fun vs s => .ok (ofList vs) s
    | sym .append => (evalArgs a s).bind fun vs s => match vs with | [x, y] => (match append x y with | some r => .ok r s | none => .err) | _ => .unspec
    | _ => other (cons f a) s
def evalArgs : Sx → S → Res S (List Sx)
  | cons a d, s => (eval a s).bind fun v s => (evalArgs d s).bind fun vs s => .ok (v :: vs) s
  | _, s => .ok [] s
end

end
end Eus.Bq
