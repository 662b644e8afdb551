import Verif.Trc.Syntax
/-!
# What tracing and timing mean

A session has a table `F` of the definitions its user wrote, a set `T` of
names being traced and a set `M` of names being timed.  A call of a traced
function prints a line on the way in and, if it returns, a line on the way
out, numbered by how many traced calls are in progress; a call of a timed
function is counted.  Nothing else changes.
-/

namespace Eus.Trc.Spec

open Eus.Trc

variable {V : Type}

/-- A table with one entry replaced. -/
def put {α : Type} (t : Nat → α) (f : Nat) (a : α) : Nat → α :=
  fun g => if g = f then a else t g

/-- A call of a timed function is counted. -/
def count (M : Sym → Bool) (f : Sym) (s : St V) : St V :=
  if M f then { s with cnt := put s.cnt f (s.cnt f + 1) } else s

/-- A call of a traced function is announced. -/
def announce (T : Sym → Bool) (lvl : Nat) (f : Sym) (vs : List V) (s : St V) :
    St V :=
  if T f then { s with log := .enter (lvl + 1) f vs :: s.log } else s

/-- The value of a call that returns is announced if its function is traced. -/
def finish (T : Sym → Bool) (lvl : Nat) (f : Sym) : Res V × St V → Res V × St V
  | (.val v, s) =>
    (.val v, if T f then { s with log := .leave (lvl + 1) f v :: s.log } else s)
  | r => r

/-- How many traced calls are in progress inside a call of `f`. -/
def inner (T : Sym → Bool) (lvl : Nat) (f : Sym) : Nat :=
  if T f then lvl + 1 else lvl

mutual
/-- Evaluation with the definitions `F` the user wrote. -/
def eval (P : Prim V) (F : Sym → Option (UDef V)) (T M : Sym → Bool) :
    Nat → Nat → List V → Expr V → St V → Res V × St V
  | 0, _, _, _, s => (.out, s)
  | _ + 1, _, _, .lit v, s => (.val v, s)
  | _ + 1, _, args, .arg i, s => (.val (args.getD i P.nil), s)
  | _ + 1, _, _, .glob k, s => (.val (s.glob k), s)
  | n + 1, lvl, args, .setg k e, s =>
    match eval P F T M n lvl args e s with
    | (.val v, s') => (.val v, { s' with glob := put s'.glob k v })
    | r => r
  | n + 1, lvl, args, .call f es, s =>
    match F f with
    | none => (.err, s)
    | some (.mac _ body) => eval P F T M n lvl args body s
    | some (.code k) =>
      match evalArgs P F T M n lvl args es s with
      | (.inl vs, s') =>
        finish T lvl f (.val (P.op k vs), announce T lvl f vs (count M f s'))
      | (.inr r, s') => (r, s')
    | some (.lam body) =>
      match evalArgs P F T M n lvl args es s with
      | (.inl vs, s') =>
        finish T lvl f
          (eval P F T M n (inner T lvl f) vs body
            (announce T lvl f vs (count M f s')))
      | (.inr r, s') => (r, s')
  | n + 1, lvl, args, .ife c a b, s =>
    match eval P F T M n lvl args c s with
    | (.val v, s') =>
      if P.isTrue v then eval P F T M n lvl args a s'
      else eval P F T M n lvl args b s'
    | r => r
  | n + 1, lvl, args, .seq a b, s =>
    match eval P F T M n lvl args a s with
    | (.val _, s') => eval P F T M n lvl args b s'
    | r => r
  | n + 1, lvl, args, .throwing tag e, s =>
    match eval P F T M n lvl args e s with
    | (.val v, s') => (.thrown tag v, s')
    | r => r
  | n + 1, lvl, args, .catching tag e, s =>
    match eval P F T M n lvl args e s with
    | (.thrown tag' v, s') =>
      if tag' = tag then (.val v, s') else (.thrown tag' v, s')
    | r => r

/-- The arguments of a call, from left to right. -/
def evalArgs (P : Prim V) (F : Sym → Option (UDef V)) (T M : Sym → Bool) :
    Nat → Nat → List V → List (Expr V) → St V → (List V ⊕ Res V) × St V
  | 0, _, _, _, s => (.inr .out, s)
  | _ + 1, _, _, [], s => (.inl [], s)
  | n + 1, lvl, args, e :: es, s =>
    match eval P F T M n lvl args e s with
    | (.val v, s') =>
      match evalArgs P F T M n lvl args es s' with
      | (.inl vs, s'') => (.inl (v :: vs), s'')
      | r => r
    | (r, s') => (.inr r, s')
end

/-- A session: the user's definitions, the names traced, the names timed, the
names that have ever been timed. -/
structure World (V : Type) where
  F : Sym → Option (UDef V)
  T : Sym → Bool
  M : Sym → Bool
  E : Sym → Bool

/-- Is this name bound to a function? -/
def World.isFun (w : World V) (f : Sym) : Bool :=
  match w.F f with
  | some d => d.isFun
  | none => false

/-- The definitions, traced names and timed names after a command. -/
def after (w : World V) : Cmd V → World V
  | .trace fs => { w with T := fun g => w.T g || (fs.contains g && w.isFun g) }
  | .untrace fs =>
    { w with T := fun g => w.T g && !(fs.isEmpty || fs.contains g) }
  | .time f =>
    if w.M f then w
    else if w.isFun f then { w with M := put w.M f true, E := put w.E f true }
    else w
  | .untime f => { w with M := put w.M f false }
  | .defun f d => { w with F := put w.F f (some d) }
  | .eval _ => w

/-- What a command changes and answers. -/
def step (P : Prim V) (n : Nat) (w : World V) (s : St V) :
    Cmd V → Option (St V × Ans V)
  | .trace _ => some (s, .done)
  | .untrace _ => some (s, .done)
  | .time f =>
    if w.M f then some (s, .report (s.cnt f))
    else if w.isFun f then some ({ s with cnt := put s.cnt f 0 }, .timing)
    else some (s, .refused)
  | .untime _ => some (s, .done)
  | .defun _ _ => some (s, .done)
  | .eval e =>
    match eval P w.F w.T w.M n 0 [] e s with
    | (.out, _) => none
    | (r, s') => some (s', .result r)

/-- A session of commands. -/
def run (P : Prim V) (n : Nat) : World V → St V → List (Cmd V) →
    Option (World V × St V × List (Ans V))
  | w, s, [] => some (w, s, [])
  | w, s, c :: cs =>
    match step P n w s c with
    | none => none
    | some (s', a) =>
      match run P n (after w c) s' cs with
      | none => none
      | some (w'', s'', as) => some (w'', s'', a :: as)

/-- A command given with care: macros and special forms are not traced,
special forms are not timed, a name is not traced and timed at once, a name
that is traced or timed is not redefined, and a name that is no longer timed
is given neither to `time` nor to `untime` again. -/
def OkCmd (w : World V) : Cmd V → Prop
  | .trace fs => ∀ f ∈ fs, w.M f = false ∧ (w.F f = none ∨ w.isFun f = true)
  | .untrace _ => True
  | .time f => w.T f = false ∧ (w.E f = true → w.M f = true) ∧
      ∀ body, w.F f ≠ some (.mac true body)
  | .untime f => w.E f = true → w.M f = true
  | .defun f _ => w.T f = false ∧ w.M f = false
  | .eval _ => True

/-- A session in which every command is given with care. -/
def Careful : World V → List (Cmd V) → Prop
  | _, [] => True
  | w, c :: cs => OkCmd w c ∧ Careful (after w c) cs

/-- The session's definitions and evaluations only. -/
def bare : List (Cmd V) → List (Cmd V)
  | [] => []
  | .eval e :: cs => .eval e :: bare cs
  | .defun f d :: cs => .defun f d :: bare cs
  | _ :: cs => bare cs

/-- The ends of a session's evaluations. -/
def results : List (Ans V) → List (Res V)
  | [] => []
  | .result r :: as => r :: results as
  | _ :: as => results as

/-- The definitions, traced names and timed names at the end of a session. -/
def final (w : World V) (cs : List (Cmd V)) : World V := cs.foldl after w

/-- Nothing is traced or timed. -/
def start (F : Sym → Option (UDef V)) : World V :=
  { F := F, T := fun _ => false, M := fun _ => false, E := fun _ => false }

end Eus.Trc.Spec
