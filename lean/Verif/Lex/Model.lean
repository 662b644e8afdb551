import Verif.Lex.Syntax
set_option autoImplicit false
/-
The interpreter: lisp/c/eval.c:33-105, 131-222, 346-448, 1488-1704, lisp/c/specials.c:112-149, 305-602, lisp/c/makes.c:785-802.

The stack holds the bind frames and the frames of local functions, in the order they are made; a pointer to a frame is its position, and frames are popped by
cutting the stack off.  The words pushed for arguments and call frames are left out: they only add to the distances.  A pointer to a position above the top of
the stack is a pointer into memory the program has given up (`ub`).  Special bindings are kept in a stack of their own.
Local declarations (`declare`), object variables and constants are left out.  Non-local exits are in Verif/Ctl, lambda lists other than required parameters in Verif/Lam.
-/
namespace Eus.Lex

/-- A pointer into the stack, or NULL. -/
abbrev Ptr := Option Nat
abbrev MVal := Val Ptr Ptr

/-- eus.h:483-486 `bindframe` (dynblink is not used for looking up); eus.h `fletframe`, with the closure it points to. -/
inductive Entry where
  | bind (sym : Sym) (val : MVal) (lex : Ptr)
  | fn (name : Sym) (ps : List Sym) (body : List Expr) (env fenv : Ptr) (lex : Ptr)

/-- eus.h `context`: the stack, `bindfp`, `fletfp`, the special bindings (newest first) with the values to be restored; and the value cells of the symbols. -/
structure MState where
  stack : List Entry
  bindfp : Ptr
  fletfp : Ptr
  sb : List (Sym × Option MVal)
  glob : Sym → Option MVal

def MState.setGlob (m : MState) (x : Sym) (v : Option MVal) : MState := { m with glob := fun y => if y = x then v else m.glob y }

/-- p > q, as addresses. -/
def Ptr.above : Ptr → Ptr → Bool
  | none, _ => false
  | some _, none => true
  | some i, some j => decide (j < i)

/-- Following lexblink from p to the frame of x (eval.c:49-59): `ok (some i)`: found at i; `ok none`: not found.  A walk longer than the
stack is a cycle; `getval` stops at a frame linked to itself, `setval` does not (eval.c:78-86). -/
def findVar (brk : Bool) (st : List Entry) (x : Sym) : Nat → Ptr → Res (Option Nat) Unit
  | _, none => .ok none ()
  | 0, some _ => .ub
  | n + 1, some i =>
    match st[i]? with
    | some (.bind y _ lex) => if y = x then .ok (some i) () else if brk = true ∧ lex = some i then .ok none () else findVar brk st x n lex
    | _ => .ub

/-- eval.c:33-66 `getval` -/
def getval (P : Prog) (x : Sym) (m : MState) : Res MVal MState :=
  if P.special x then match m.glob x with | some v => .ok v m | none => .err
  else
    match findVar true m.stack x (m.stack.length + 1) m.bindfp with
    | .ok (some i) _ => match m.stack[i]? with | some (.bind _ v _) => .ok v m | _ => .ub
    | .ok none _ => match m.glob x with | some v => .ok v m | none => .err
    | _ => .ub

/-- eval.c:68-93 `setval` -/
def setval (P : Prog) (x : Sym) (v : MVal) (m : MState) : Res MVal MState :=
  if P.special x then .ok v (m.setGlob x (some v))
  else
    match findVar false m.stack x (m.stack.length + 1) m.bindfp with
    | .ok (some i) _ =>
      match m.stack[i]? with
      | some (.bind y _ lex) => .ok v { m with stack := m.stack.set i (.bind y v lex) }
      | _ => .ub
    | .ok none _ => .ok v (m.setGlob x (some v))
    | _ => .ub

/-- eval.c:97-106 `getfunc`, the local functions. -/
def findFun (st : List Entry) (f : Sym) : Nat → Ptr → Res (Option Nat) Unit
  | _, none => .ok none ()
  | 0, some _ => .ub
  | n + 1, some i =>
    match st[i]? with
    | some (.fn g _ _ _ _ lex) => if g = f then .ok (some i) () else findFun st f n lex
    | _ => .ub

/-- What a name stands for: a local function (its closure) or the definition made by `defun`. -/
inductive Fun where
  | clo (ps : List Sym) (body : List Expr) (env fenv : Ptr)
  | lambda (ps : List Sym) (body : List Expr)

def getfunc (P : Prog) (f : Sym) (m : MState) : Res Fun MState :=
  match findFun m.stack f (m.stack.length + 1) m.fletfp with
  | .ok (some i) _ => match m.stack[i]? with | some (.fn _ ps body e fe _) => .ok (.clo ps body e fe) m | _ => .ub
  | .ok none _ => match P.fns f with | some (ps, body) => .ok (.lambda ps body) m | none => .err
  | _ => .ub

/-- eval.c:201-207: the scan of `vbind` for a variable of the same form with the same name. -/
def multi (st : List Entry) (x : Sym) (scope : Ptr) : Nat → Ptr → Res Bool Unit
  | 0, p => if p.above scope then .ub else .ok false ()
  | n + 1, p =>
    if p.above scope then
      match p with
      | none => .ok false ()
      | some i =>
        match st[i]? with
        | some (.bind y _ lex) => if y = x then .ok true () else if lex = some i then .ok false () else multi st x scope n lex
        | _ => .ub
    else .ok false ()

/-- eval.c:131-146 `bindspecial`, 180-192 `fastbind`, 194-222 `vbind`; the result is the new environment. -/
def vbind (P : Prog) (x : Sym) (v : MVal) (lex scope : Ptr) (m : MState) : Res Ptr MState :=
  match multi m.stack x scope (m.stack.length + 1) m.bindfp with
  | .ok true _ => .err
  | .ok false _ =>
    if P.special x then .ok m.bindfp { m.setGlob x (some v) with sb := (x, m.glob x) :: m.sb }
    else .ok (some m.stack.length) { m with stack := m.stack ++ [.bind x v lex], bindfp := some m.stack.length }
  | _ => .ub

/-- eval.c:372-382: required parameters one after the other. -/
def bindAll (P : Prog) (scope : Ptr) : List Sym → List MVal → Ptr → MState → Res Ptr MState
  | [], [], env, m => .ok env m
  | x :: xs, v :: vs, env, m => (vbind P x v env scope m).bind fun env m => bindAll P scope xs vs env m
  | _, _, _, _ => .err

/-- eval.c:165-178 `unbindspecial`: back to n special bindings. -/
def unbind (n : Nat) : List (Sym × Option MVal) → (Sym → Option MVal) → List (Sym × Option MVal) × (Sym → Option MVal)
  | [], g => ([], g)
  | (x, v) :: sb, g => if n < sb.length + 1 then unbind n sb (fun y => if y = x then v else g y) else ((x, v) :: sb, g)

/-- The end of a form that has made frames and special bindings: m is the state before it. -/
def leave (m m' : MState) : MState :=
  let u := unbind m.sb.length m'.sb m'.glob
  { m' with stack := m'.stack.take m.stack.length, bindfp := m.bindfp, fletfp := m.fletfp, sb := u.1, glob := u.2 }

/-- eval.c:346-448 `funlambda`, and 1620-1637: a closure brings its environments; a function defined by `defun` gets NULL for variables and the
caller's local functions. -/
def apply (P : Prog) (ev : Expr → MState → Res MVal MState) (ps : List Sym) (body : List Expr) (env fenv : Ptr) (args : List MVal) (m : MState) : Res MVal MState :=
  (bindAll P m.bindfp ps args env { m with bindfp := env, fletfp := fenv }).bind fun _ m1 =>
    (prognFrom ev .nil body m1).bind fun v m' => .ok v (leave m m')

/-- specials.c:575, 593: one frame (makes.c:785-802 `makeflet`). -/
def pushFun (f : Sym) (ps : List Sym) (body : List Expr) (scope : Ptr) (m : MState) : MState :=
  { m with stack := m.stack ++ [.fn f ps body m.bindfp scope m.fletfp], fletfp := some m.stack.length }

/-- specials.c:562-578 `FLET`: the scope of every function is what was there before. -/
def pushFlet (scope : Ptr) : List (Sym × List Sym × List Expr) → MState → MState
  | [], m => m
  | (f, ps, b) :: ds, m => pushFlet scope ds (pushFun f ps b scope m)

/-- specials.c:594-599: the second pass of `LABELS`, over the n newest function frames, from the newest on. -/
def relink (scope : Ptr) : Nat → Ptr → List Entry → List Entry
  | 0, _, st => st
  | _ + 1, none, st => st
  | n + 1, some i, st =>
    match st[i]? with
    | some (.fn f ps b e _ lex) => relink scope n lex (st.set i (.fn f ps b e scope lex))
    | _ => st

/-- specials.c:580-593: the first pass of `LABELS`. -/
def pushLabels : List (Sym × List Sym × List Expr) → MState → MState
  | [], m => m
  | (f, ps, b) :: ds, m => pushLabels ds (pushFun f ps b m.fletfp m)

/-- specials.c:485-496: `let*`, initial value and binding in turn. -/
def bindSeq (P : Prog) (ev : Expr → MState → Res MVal MState) (scope : Ptr) : List (Sym × Expr) → Ptr → MState → Res Ptr MState
  | [], env, m => .ok env m
  | (x, e) :: bs, env, m => (ev e m).bind fun v m => (vbind P x v env scope m).bind fun env m => bindSeq P ev scope bs env m

/-- One step down into a form: eval.c:1641-1681 `eval`, 1488-1640 `ufuncall`; specials.c:305-500. -/
def evalF (P : Prog) (ev : Expr → MState → Res MVal MState) : Expr → MState → Res MVal MState
  | .nil, m => .ok .nil m
  | .t, m => .ok .t m
  | .int n, m => .ok (.int n) m
  | .var x, m => getval P x m
  | .setq x e, m => (ev e m).bind fun v m => setval P x v m
  | .ite c a b, m => (ev c m).bind fun v m => match v with | .nil => ev b m | _ => ev a m
  | .not e, m => (ev e m).bind fun v m => .ok v.negate m
  /- specials.c:829: r is not set if there are no forms -/
  | .and [], _ => .ub
  | .and es, m => andFrom ev .t es m
  | .or es, m => orFrom ev es m
  | .progn es, m => prognFrom ev .nil es m
  | .while c body, m => (ev c m).bind fun v m =>
    match v with
    | .nil => .ok .nil m
    | _ => (prognFrom ev .nil body m).bind fun _ m => ev (.while c body) m
  | .letp bs body, m => (evalArgs ev (bs.map Prod.snd) m).bind fun vs m =>
    (bindAll P m.bindfp (bs.map Prod.fst) vs m.bindfp m).bind fun _ m1 => (prognFrom ev .nil body m1).bind fun v m' => .ok v (leave m m')
  | .lets bs body, m => (bindSeq P ev m.bindfp bs m.bindfp m).bind fun _ m1 => (prognFrom ev .nil body m1).bind fun v m' => .ok v (leave m m')
  | .lam ps body, m => .ok (.clo ps body m.bindfp m.fletfp) m
  /- specials.c:132-149 `FUNCTION_CLOSURE`: also a function defined by `defun` gets the environments of the place -/
  | .fn f, m => (getfunc P f m).bind fun g m =>
    match g with
    | .clo ps body e fe => .ok (.clo ps body e fe) m
    | .lambda ps body => .ok (.clo ps body m.bindfp m.fletfp) m
  | .funcall e args, m => (ev e m).bind fun g m => (evalArgs ev args m).bind fun vs m =>
    match g with
    | .clo ps body e fe => apply P ev ps body e fe vs m
    | _ => .err
  | .call f args, m => (getfunc P f m).bind fun g m => (evalArgs ev args m).bind fun vs m =>
    match g with
    | .clo ps body e fe => apply P ev ps body e fe vs m
    | .lambda ps body => apply P ev ps body none m.fletfp vs m
  /- eval.c:1538 sets env to bindfp, 1609 sets it to NULL again -/
  | .lamcall ps body args, m => (evalArgs ev args m).bind fun vs m => apply P ev ps body none m.fletfp vs m
  | .flet ds body, m => (prognFrom ev .nil body (pushFlet m.fletfp ds m)).bind fun v m' => .ok v (leave m m')
  | .labels ds body, m =>
    let m1 := pushLabels ds m
    (prognFrom ev .nil body { m1 with stack := relink m1.fletfp ds.length m1.fletfp m1.stack }).bind fun v m' => .ok v (leave m m')
  | .prim k args, m => (evalArgs ev args m).bind fun vs m =>
    match (vs.mapM Val.datum).bind (P.builtin k) with
    | some d => .ok (Val.ofDatum d) m
    | none => .err

def eval (P : Prog) : Nat → Expr → MState → Res MVal MState
  | 0 => fun _ _ => .out
  | n + 1 => evalF P (eval P n)

end Eus.Lex
