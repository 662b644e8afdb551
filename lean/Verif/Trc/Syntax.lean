/-!
# Programs that a session traces and times

The small language in which the functions of a session are written, and the
commands of a session.  Both the model of the tracer (`Model.lean`) and its
specification (`Spec.lean`) speak of these.
-/

namespace Eus.Trc

/-- A symbol. -/
abbrev Sym := Nat

/-- Forms.  `V` is the type of Lisp values.  Simplified: a function sees its
arguments by position, global variables are numbered. -/
inductive Expr (V : Type) where
  | lit (v : V)
  /-- the `i`-th argument of the function whose body this is -/
  | arg (i : Nat)
  | glob (k : Nat)
  | setg (k : Nat) (e : Expr V)
  | call (f : Sym) (args : List (Expr V))
  | ife (c a b : Expr V)
  | seq (a b : Expr V)
  | throwing (tag : Nat) (e : Expr V)
  | catching (tag : Nat) (e : Expr V)

/-- What a user can put in the function cell of a symbol: a `lambda`, a
compiled function (`code`), a macro or special form.  Simplified: a macro or
special form (`mac true` is a special form) has no parameters, it stands for
the form `body`, which is evaluated where the macro is used. -/
inductive UDef (V : Type) where
  | lam (body : Expr V)
  | code (k : Nat)
  | mac (special : Bool) (body : Expr V)

/-- Is this a function (and not a macro or special form)? -/
def UDef.isFun {V : Type} : UDef V → Bool
  | .lam _ => true
  | .code _ => true
  | .mac _ _ => false

/-- The ways an evaluation ends; `out` says that the evaluator's fuel ran out,
so that nothing is known of the end. -/
inductive Res (V : Type) where
  | val (v : V)
  | thrown (tag : Nat) (v : V)
  | err
  | out
deriving DecidableEq

/-- The lines the tracer prints. -/
inductive Line (V : Type) where
  /-- `;; level: --> name args` -/
  | enter (level : Nat) (f : Sym) (args : List V)
  /-- `;; level: result <-- name` -/
  | leave (level : Nat) (f : Sym) (result : V)
deriving DecidableEq

/-- What evaluation changes: the global variables, the lines printed by the
tracer (latest first), and the call counts of timed functions. -/
structure St (V : Type) where
  glob : Nat → V
  log : List (Line V)
  cnt : Sym → Nat

/-- The primitive operations of the language: compiled functions by number,
and which values are true. -/
structure Prim (V : Type) where
  nil : V
  op : Nat → List V → V
  isTrue : V → Bool

/-- The commands of a session. -/
inductive Cmd (V : Type) where
  | trace (fs : List Sym)
  /-- with no names: all the traced functions -/
  | untrace (fs : List Sym)
  | time (f : Sym)
  | untime (f : Sym)
  | defun (f : Sym) (d : UDef V)
  | eval (e : Expr V)

/-- What a command gives back: the end of an evaluation, the count that
`time` reports, or nothing of interest. -/
inductive Ans (V : Type) where
  | done
  | refused
  | timing
  | report (calls : Nat)
  | result (r : Res V)
deriving DecidableEq

end Eus.Trc
