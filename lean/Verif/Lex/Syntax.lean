set_option autoImplicit false
/-
The forms of the language, common to the interpreter's model and to the specification.
-/
namespace Eus.Lex

/-- The name of a variable or function. -/
abbrev Sym := Nat

/-- Forms.  Macros are taken as expanded; `when` and `cond` are nested `if`s. -/
inductive Expr where
  | nil
  | t
  | int (n : Int)
  | var (x : Sym)
  | setq (x : Sym) (e : Expr)
  | ite (c a b : Expr)
  /-- `(not e)`, `(null e)` -/
  | not (e : Expr)
  | and (es : List Expr)
  | or (es : List Expr)
  | progn (es : List Expr)
  | while (c : Expr) (body : List Expr)
  /-- `(let ((x e) ...) . body)` -/
  | letp (bs : List (Sym × Expr)) (body : List Expr)
  /-- `(let* ((x e) ...) . body)` -/
  | lets (bs : List (Sym × Expr)) (body : List Expr)
  /-- `#'(lambda ps . body)` -/
  | lam (ps : List Sym) (body : List Expr)
  /-- `#'f` -/
  | fn (f : Sym)
  /-- `(funcall e . args)` -/
  | funcall (e : Expr) (args : List Expr)
  /-- `(f . args)` with f a function written in Lisp -/
  | call (f : Sym) (args : List Expr)
  /-- `((lambda ps . body) . args)` -/
  | lamcall (ps : List Sym) (body : List Expr) (args : List Expr)
  /-- `(flet ((f ps . b) ...) . body)` -/
  | flet (ds : List (Sym × List Sym × List Expr)) (body : List Expr)
  /-- `(labels ((f ps . b) ...) . body)` -/
  | labels (ds : List (Sym × List Sym × List Expr)) (body : List Expr)
  /-- a builtin function of the arguments' values, the k-th -/
  | prim (k : Nat) (args : List Expr)

/-- What is defined outside: functions defined by `defun`, the variables proclaimed special, the builtin functions on numbers and NIL (none). -/
structure Prog where
  fns : Sym → Option (List Sym × List Expr)
  special : Sym → Bool
  builtin : Nat → List (Option Int) → Option (Option Int)

/-- Values, with E and F for the representation of the environments of variables and of functions. -/
inductive Val (E F : Type) where
  | nil
  | t
  | int (n : Int)
  | clo (ps : List Sym) (body : List Expr) (env : E) (fenv : F)

/-- A value a builtin function takes. -/
def Val.datum {E F : Type} : Val E F → Option (Option Int)
  | .nil => some none
  | .t => none
  | .int n => some (some n)
  | .clo .. => none

/-- predicates.c:26-31 `NILP` -/
def Val.negate {E F : Type} : Val E F → Val E F
  | .nil => .t
  | _ => .nil

def Val.ofDatum {E F : Type} : Option Int → Val E F
  | none => .nil
  | some n => .int n

/-- Outcomes: a value and the state; an error; memory that is no longer what it was is used (`ub`: by the interpreter; `escape`: a function is called after the form it was
made in has been left); the steps allowed are used up. -/
inductive Res (α S : Type) where
  | ok (v : α) (s : S)
  | err
  | ub
  | escape
  | out

def Res.bind {α β S : Type} (r : Res α S) (f : α → S → Res β S) : Res β S :=
  match r with
  | .ok v s => f v s
  | .err => .err
  | .ub => .ub
  | .escape => .escape
  | .out => .out

/-- eval.c:1429-1480 `funcode`, SUBR_FUNCTION: the arguments from left to right. -/
def evalArgs {V S : Type} (ev : Expr → S → Res V S) : List Expr → S → Res (List V) S
  | [], s => .ok [] s
  | e :: es, s => (ev e s).bind fun v s => (evalArgs ev es s).bind fun vs s => .ok (v :: vs) s

/-- eval.c:1698-1706 `progn` -/
def prognFrom {V S : Type} (ev : Expr → S → Res V S) : V → List Expr → S → Res V S
  | v, [], s => .ok v s
  | _, e :: es, s => (ev e s).bind fun v s => prognFrom ev v es s

/-- specials.c:833-837 `AND`: r is the value of the last form, before the first one it is what is given. -/
def andFrom {E F S : Type} (ev : Expr → S → Res (Val E F) S) : Val E F → List Expr → S → Res (Val E F) S
  | r, [], s => .ok r s
  | _, e :: es, s => (ev e s).bind fun v s => match v with | .nil => .ok .nil s | r => andFrom ev r es s

/-- specials.c:846-850 `OR` -/
def orFrom {E F S : Type} (ev : Expr → S → Res (Val E F) S) : List Expr → S → Res (Val E F) S
  | [], s => .ok .nil s
  | e :: es, s => (ev e s).bind fun v s => match v with | .nil => orFrom ev es s | r => .ok r s

end Eus.Lex
