import Verif.Trc.Syntax
/-!
# `trace`, `untrace`, `time` and `untime`

Model of the tracer and the call timer of `lisp/l/eusdebug.l`.  Both work by
replacing the function cell of a symbol by a `lambda` that calls the old
definition, kept on the symbol's property list.
-/

namespace Eus.Trc

/-- The contents of a function cell.  `tracer f` is the list
`(lambda (&rest paramlist) (tracex 'f paramlist))` made at eusdebug.l:291-293,
`timer f` the list made by `time-func` (eusdebug.l:388-395), `nil` is `NIL`,
which `untrace` stores when the property it looks for is missing
(eusdebug.l:309). -/
inductive Def (V : Type) where
  | user (d : UDef V)
  | tracer (f : Sym)
  | timer (f : Sym)
  | nil

/-- The part of the world that the commands change.  `fn f = none` is an
unbound function cell (predicates.c:113); `tprop f` is the property
`traced-function` (eusdebug.l:290), `mprop f` the property `:timed-function`
(eusdebug.l:412); `traced` and `timed` are the lists `*traced-functions*` and
`*timed-functions*` (eusdebug.l:275, 386).  The property `:call-count` is
`St.cnt`; `:elapsed-time` is not modelled. -/
structure Tab (V : Type) where
  fn : Sym → Option (Def V)
  tprop : Sym → Option (Def V)
  traced : List Sym
  mprop : Sym → Option (Def V)
  timed : List Sym

variable {V : Type}

/-- A table with one entry replaced: `setfunc` (eval.c:116-118), `putprop`. -/
def upd {α : Type} (t : Sym → α) (f : Sym) (a : α) : Sym → α :=
  fun g => if g = f then a else t g

/-- `functionp` of the contents of a function cell (common.l:882-890): a list
headed by `lambda`, or compiled code of type 0. -/
def functionp : Def V → Bool
  | .user (.lam _) => true
  | .user (.code _) => true
  | .user (.mac _ _) => false
  | .tracer _ => true
  | .timer _ => true
  | .nil => false

/-- `macro-function` (common.l:911-919): true of macros, not of special
forms. -/
def macroFunction : Def V → Bool
  | .user (.mac special _) => !special
  | _ => false

mutual
/-- Evaluation of a form; `lvl` is the value of the special variable
`*tracelevel*`, `args` the arguments of the function being run.  A function is
called through its symbol's function cell (eval.c:97-106).  Simplified: the
language is the one of `Syntax.lean`. -/
def eval (P : Prim V) (t : Tab V) : Nat → Nat → List V → Expr V → St V →
    Res V × St V
  | 0, _, _, _, s => (.out, s)
  | _ + 1, _, _, .lit v, s => (.val v, s)
  | _ + 1, _, args, .arg i, s => (.val (args.getD i P.nil), s)
  | _ + 1, _, _, .glob k, s => (.val (s.glob k), s)
  | n + 1, lvl, args, .setg k e, s =>
    match eval P t n lvl args e s with
    | (.val v, s') => (.val v, { s' with glob := upd s'.glob k v })
    | r => r
  | n + 1, lvl, args, .call f es, s =>
    match t.fn f with
    | none => (.err, s)
    | some .nil => (.err, s)
    | some (.user (.mac _ body)) => eval P t n lvl args body s
    | some d =>
      match evalArgs P t n lvl args es s with
      | (.inl vs, s') => apply P t n lvl d vs s'
      | (.inr r, s') => (r, s')
  | n + 1, lvl, args, .ife c a b, s =>
    match eval P t n lvl args c s with
    | (.val v, s') =>
      if P.isTrue v then eval P t n lvl args a s' else eval P t n lvl args b s'
    | r => r
  | n + 1, lvl, args, .seq a b, s =>
    match eval P t n lvl args a s with
    | (.val _, s') => eval P t n lvl args b s'
    | r => r
  | n + 1, lvl, args, .throwing tag e, s =>
    match eval P t n lvl args e s with
    | (.val v, s') => (.thrown tag v, s')
    | r => r
  | n + 1, lvl, args, .catching tag e, s =>
    match eval P t n lvl args e s with
    | (.thrown tag' v, s') =>
      if tag' = tag then (.val v, s') else (.thrown tag' v, s')
    | r => r

/-- The arguments of a call, from left to right. -/
def evalArgs (P : Prim V) (t : Tab V) : Nat → Nat → List V →
    List (Expr V) → St V → (List V ⊕ Res V) × St V
  | 0, _, _, _, s => (.inr .out, s)
  | _ + 1, _, _, [], s => (.inl [], s)
  | n + 1, lvl, args, e :: es, s =>
    match eval P t n lvl args e s with
    | (.val v, s') =>
      match evalArgs P t n lvl args es s' with
      | (.inl vs, s'') => (.inl (v :: vs), s'')
      | r => r
    | (r, s') => (.inr r, s')

/-- A call of the contents of a function cell.  `tracer f` runs `tracex`
(eusdebug.l:277-285): `*tracelevel*` is bound to one more, a line is printed,
the property `traced-function` is applied, and if that returns a second line
is printed.  `timer f` runs the lambda of `time-func` (eusdebug.l:388-395):
the count is raised, then the property `:timed-function` is applied. -/
def apply (P : Prim V) (t : Tab V) : Nat → Nat → Def V → List V → St V →
    Res V × St V
  | 0, _, _, _, s => (.out, s)
  | n + 1, lvl, .user (.lam body), vs, s => eval P t n lvl vs body s
  | _ + 1, _, .user (.code k), vs, s => (.val (P.op k vs), s)
  | _ + 1, _, .user (.mac _ _), _, s => (.err, s)
  | n + 1, lvl, .tracer f, vs, s =>
    let s1 := { s with log := .enter (lvl + 1) f vs :: s.log }
    match apply P t n (lvl + 1) ((t.tprop f).getD .nil) vs s1 with
    | (.val v, s') => (.val v, { s' with log := .leave (lvl + 1) f v :: s'.log })
    | r => r
  | n + 1, lvl, .timer f, vs, s =>
    let s1 := { s with cnt := upd s.cnt f (s.cnt f + 1) }
    apply P t n lvl ((t.mprop f).getD .nil) vs s1
  | _ + 1, _, .nil, _, s => (.err, s)
end

/-- `trace1` on a bound symbol, and the `push` that follows it
(eusdebug.l:287-294, 301-302).  The symbol is pushed whether or not `trace1`
found a function. -/
def trace1 (t : Tab V) (f : Sym) (d : Def V) : Tab V :=
  let t' := if functionp d then
      { t with tprop := upd t.tprop f (some d),
               fn := upd t.fn f (some (.tracer f)) }
    else t
  { t' with traced := f :: t'.traced }

/-- One round of the loop of `trace` (eusdebug.l:296-302): nothing for a
symbol already in the list, a warning for an unbound one. -/
def traceStep (t : Tab V) (f : Sym) : Tab V :=
  if f ∈ t.traced then t
  else match t.fn f with
    | none => t
    | some d => trace1 t f d

/-- `(trace f …)` (eusdebug.l:296-303). -/
def trace (t : Tab V) (fs : List Sym) : Tab V := fs.foldl traceStep t

/-- One round of the loop of `untrace` (eusdebug.l:307-310).  `delete` takes
out every occurrence (sequence.c:723-772). -/
def untraceStep (t : Tab V) (f : Sym) : Tab V :=
  if f ∈ t.traced then
    { t with fn := upd t.fn f (some ((t.tprop f).getD .nil)),
             traced := t.traced.filter (· ≠ f) }
  else t

/-- `(untrace f …)` (eusdebug.l:305-310); with no names the loop goes through
all of `*traced-functions*` (eusdebug.l:306).  The list gone through is then
the list that `delete` shortens; each symbol is its first element when it is
deleted, and deleting the first element changes no cell (sequence.c:756), so
the loop sees every symbol. -/
def untrace (t : Tab V) (fs : List Sym) : Tab V := fs.foldl untraceStep t

/-- `(time f)` (eusdebug.l:397-416): a report if the symbol has the property
`:timed-function`, else an error for an unbound symbol or a macro, else the
timing lambda is put into the function cell. -/
def time (t : Tab V) (s : St V) (f : Sym) : Tab V × St V × Ans V :=
  match t.mprop f with
  | some _ => (t, s, .report (s.cnt f))
  | none =>
    match t.fn f with
    | none => (t, s, .refused)
    | some d =>
      if macroFunction d then (t, s, .refused)
      else
        ({ t with mprop := upd t.mprop f (some d),
                  fn := upd t.fn f (some (.timer f)),
                  timed := f :: t.timed },
         { s with cnt := upd s.cnt f 0 }, .timing)

/-- `(untime f)` (eusdebug.l:419-424).  The property stays. -/
def untime (t : Tab V) (f : Sym) : Tab V :=
  match t.mprop f with
  | some d => { t with timed := t.timed.filter (· ≠ f),
                       fn := upd t.fn f (some d) }
  | none => t

/-- One command of a session at the top level; `none` if an evaluation runs
out of fuel.  An evaluation starts with `*tracelevel*` 0 (eusdebug.l:204).
`defun` sets the function cell (specials.c, `setfunc`). -/
def step (P : Prim V) (n : Nat) (t : Tab V) (s : St V) :
    Cmd V → Option (Tab V × St V × Ans V)
  | .trace fs => some (trace t fs, s, .done)
  | .untrace fs =>
    -- with no names the macro takes all of `*traced-functions*`
    some (untrace t (if fs.isEmpty then t.traced else fs), s, .done)
  | .time f => some (time t s f)
  | .untime f => some (untime t f, s, .done)
  | .defun f d => some ({ t with fn := upd t.fn f (some (.user d)) }, s, .done)
  | .eval e =>
    match eval P t n 0 [] e s with
    | (.out, _) => none
    | (r, s') => some (t, s', .result r)

/-- A session. -/
def run (P : Prim V) (n : Nat) : Tab V → St V → List (Cmd V) →
    Option (Tab V × St V × List (Ans V))
  | t, s, [] => some (t, s, [])
  | t, s, c :: cs =>
    match step P n t s c with
    | none => none
    | some (t', s', a) =>
      match run P n t' s' cs with
      | none => none
      | some (t'', s'', as) => some (t'', s'', a :: as)

/-- The world before anything is traced or timed. -/
def fresh (F : Sym → Option (UDef V)) : Tab V :=
  { fn := fun f => (F f).map .user, tprop := fun _ => none, traced := [],
    mprop := fun _ => none, timed := [] }

end Eus.Trc
