import Verif.Lex.Syntax
set_option autoImplicit false
/-
Lexical scoping, as the language defines it: an environment tells for every visible name its cell; a function keeps the environments it was made in; special
variables are bound for the duration of a form.  Cells are never reused; `live` are those of the forms being evaluated, oldest first.
-/
namespace Eus.Lex

/-- Names and their cells, innermost first. -/
abbrev SEnv := List (Sym × Nat)
abbrev SVal := Val SEnv SEnv

/-- A cell: a variable's value or a local function. -/
inductive Cell where
  | var (v : SVal)
  | fn (ps : List Sym) (body : List Expr) (env fenv : SEnv)

structure SState where
  cells : Nat → Cell
  live : List Nat
  next : Nat
  /-- global variables, and the values of special variables -/
  glob : Sym → Option SVal

/-- The cell of a name. -/
def cellOf (x : Sym) (ρ : SEnv) : Option Nat := (ρ.find? (fun p => p.1 == x)).map Prod.snd

def SState.put (s : SState) (l : Nat) (c : Cell) : SState := { s with cells := fun k => if k = l then c else s.cells k }

def SState.setGlob (s : SState) (x : Sym) (v : Option SVal) : SState := { s with glob := fun y => if y = x then v else s.glob y }

/-- A new cell. -/
def SState.alloc (s : SState) (c : Cell) : SState := { s.put s.next c with live := s.live ++ [s.next], next := s.next + 1 }

/-- Bind variables, from left to right: cells for lexical ones. -/
def sbind (P : Prog) : List Sym → List SVal → SEnv → SState → SEnv × SState
  | x :: xs, v :: vs, ρ, s => if P.special x then sbind P xs vs ρ (s.setGlob x (some v)) else sbind P xs vs ((x, s.next) :: ρ) (s.alloc (.var v))
  | _, _, ρ, s => (ρ, s)

/-- Leave a form that has bound these variables: s is the state before it, s' after it.  Special variables get back the value they had, cells are dead. -/
def sleave (P : Prog) (xs : List Sym) (s s' : SState) : SState :=
  { s' with live := s.live, glob := fun y => if P.special y ∧ y ∈ xs then s.glob y else s'.glob y }

/-- All cells of an environment are live. -/
def allLive (s : SState) (ρ : SEnv) : Bool := ρ.all (fun p => s.live.contains p.2)

/-- Call a function.  With `chk`, a function whose variables or local functions are not live any more is not called: `escape`. -/
def sapply (chk : Bool) (P : Prog) (ev : SEnv → SEnv → Expr → SState → Res SVal SState) (ps : List Sym) (body : List Expr) (ρ φ : SEnv) (args : List SVal) (s : SState) : Res SVal SState :=
  if !chk || (allLive s ρ && allLive s φ) then
    if ps.length = args.length then
      let b := sbind P ps args ρ s
      (prognFrom (ev b.1 φ) .nil body b.2).bind fun v s' => .ok v (sleave P ps s s')
    else .err
  else .escape

/-- Cells for local functions, each with the same environments. -/
def sfuns (ρ : SEnv) : List (Sym × List Sym × List Expr) → SEnv → SState → SEnv × SState
  | [], φ, s => (φ, s)
  | (f, _, _) :: ds, φ, s => sfuns ρ ds ((f, s.next) :: φ) (s.alloc (.var .nil))

/-- Put the functions into the cells allocated for them. -/
def sdefine (ρ φ : SEnv) : List (Sym × List Sym × List Expr) → Nat → SState → SState
  | [], _, s => s
  | (_, ps, b) :: ds, l, s => sdefine ρ φ ds (l + 1) (s.put l (.fn ps b ρ φ))

/-- `let*`: every variable is visible in what follows it. -/
def slets (P : Prog) (ev : SEnv → SEnv → Expr → SState → Res SVal SState) (φ : SEnv) (body : List Expr) : List (Sym × Expr) → SEnv → SState → Res SVal SState
  | [], ρ, s => prognFrom (ev ρ φ) .nil body s
  | (x, e) :: bs, ρ, s => (ev ρ φ e s).bind fun v s =>
    let b := sbind P [x] [v] ρ s
    (slets P ev φ body bs b.1 b.2).bind fun w s' => .ok w (sleave P [x] s s')

/-- One step down into a form. -/
def sevalF (chk : Bool) (P : Prog) (ev : SEnv → SEnv → Expr → SState → Res SVal SState) (ρ φ : SEnv) : Expr → SState → Res SVal SState
  | .nil, s => .ok .nil s
  | .t, s => .ok .t s
  | .int n, s => .ok (.int n) s
  | .var x, s =>
    match (if P.special x then none else cellOf x ρ) with
    | some l => match s.cells l with | .var v => .ok v s | .fn .. => .err
    | none => match s.glob x with | some v => .ok v s | none => .err
  | .setq x e, s => (ev ρ φ e s).bind fun v s =>
    match (if P.special x then none else cellOf x ρ) with
    | some l => .ok v (s.put l (.var v))
    | none => .ok v (s.setGlob x (some v))
  | .ite c a b, s => (ev ρ φ c s).bind fun v s => match v with | .nil => ev ρ φ b s | _ => ev ρ φ a s
  | .not e, s => (ev ρ φ e s).bind fun v s => .ok v.negate s
  | .and es, s => andFrom (ev ρ φ) .t es s
  | .or es, s => orFrom (ev ρ φ) es s
  | .progn es, s => prognFrom (ev ρ φ) .nil es s
  | .while c body, s => (ev ρ φ c s).bind fun v s =>
    match v with
    | .nil => .ok .nil s
    | _ => (prognFrom (ev ρ φ) .nil body s).bind fun _ s => ev ρ φ (.while c body) s
  | .letp bs body, s => (evalArgs (ev ρ φ) (bs.map Prod.snd) s).bind fun vs s =>
    let b := sbind P (bs.map Prod.fst) vs ρ s
    (prognFrom (ev b.1 φ) .nil body b.2).bind fun v s' => .ok v (sleave P (bs.map Prod.fst) s s')
  | .lets bs body, s => slets P ev φ body bs ρ s
  | .lam ps body, s => .ok (.clo ps body ρ φ) s
  | .fn f, s =>
    match cellOf f φ with
    | some l => match s.cells l with | .fn ps body ρ' φ' => .ok (.clo ps body ρ' φ') s | .var _ => .err
    | none => match P.fns f with | some (ps, body) => .ok (.clo ps body [] []) s | none => .err
  | .funcall e args, s => (ev ρ φ e s).bind fun g s => (evalArgs (ev ρ φ) args s).bind fun vs s =>
    match g with
    | .clo ps body ρ' φ' => sapply chk P ev ps body ρ' φ' vs s
    | _ => .err
  | .call f args, s =>
    match cellOf f φ with
    | some l =>
      match s.cells l with
      | .fn ps body ρ' φ' => (evalArgs (ev ρ φ) args s).bind fun vs s => sapply chk P ev ps body ρ' φ' vs s
      | .var _ => .err
    | none =>
      match P.fns f with
      | some (ps, body) => (evalArgs (ev ρ φ) args s).bind fun vs s => sapply chk P ev ps body [] [] vs s
      | none => .err
  | .lamcall ps body args, s => (evalArgs (ev ρ φ) args s).bind fun vs s => sapply chk P ev ps body ρ φ vs s
  | .flet ds body, s =>
    let b := sfuns ρ ds φ s
    (prognFrom (ev ρ b.1) .nil body (sdefine ρ φ ds s.next b.2)).bind fun v s' => .ok v (sleave P [] s s')
  | .labels ds body, s =>
    let b := sfuns ρ ds φ s
    (prognFrom (ev ρ b.1) .nil body (sdefine ρ b.1 ds s.next b.2)).bind fun v s' => .ok v (sleave P [] s s')
  | .prim k args, s => (evalArgs (ev ρ φ) args s).bind fun vs s =>
    match (vs.mapM Val.datum).bind (P.builtin k) with
    | some d => .ok (Val.ofDatum d) s
    | none => .err

/-- The value of a form in n steps down. -/
def seval (chk : Bool) (P : Prog) : Nat → SEnv → SEnv → Expr → SState → Res SVal SState
  | 0 => fun _ _ _ _ => .out
  | n + 1 => sevalF chk P (seval chk P n)

/-- The lexical variables visible after binding these. -/
def ext (P : Prog) : List Sym → List Sym → List Sym
  | [], sc => sc
  | x :: xs, sc => ext P xs (if P.special x then sc else x :: sc)

/-- The names of local functions visible after defining these. -/
def extF : List (Sym × List Sym × List Expr) → List Sym → List Sym
  | [], fs => fs
  | (f, _, _) :: ds, fs => extF ds (f :: fs)

/-- Which programs: `params`: every function has a lexical parameter; otherwise no parameter has the name of a variable visible where the function is written.
`locals`: `flet` and `labels` are used, and functions defined by `defun` have a lexical parameter. -/
structure Mode where
  params : Bool
  locals : Bool

/-- The parameters of a function written where the variables sc are visible. -/
def okParams (md : Mode) (P : Prog) (sc ps : List Sym) : Prop :=
  ps.Nodup ∧ if md.params then ∃ x ∈ ps, P.special x = false else ∀ x ∈ ps, x ∉ sc

/-- Programs for which the interpreter scopes lexically, with the variables sc and local functions fs visible: no name twice in a list of variables; parameters as above; functions called are
defined; local functions do not have the name of a function defined by `defun`; `#'f` only of local functions; no `(and)`; no `((lambda ...) ...)`. -/
inductive Plain (md : Mode) (P : Prog) : List Sym → List Sym → Expr → Prop
  | nil {sc fs} : Plain md P sc fs .nil
  | t {sc fs} : Plain md P sc fs .t
  | int {sc fs} (n : Int) : Plain md P sc fs (.int n)
  | var {sc fs} (x : Sym) : Plain md P sc fs (.var x)
  | setq {sc fs x e} : Plain md P sc fs e → Plain md P sc fs (.setq x e)
  | ite {sc fs c a b} : Plain md P sc fs c → Plain md P sc fs a → Plain md P sc fs b → Plain md P sc fs (.ite c a b)
  | not {sc fs e} : Plain md P sc fs e → Plain md P sc fs (.not e)
  | and {sc fs es} : es ≠ [] → (∀ e ∈ es, Plain md P sc fs e) → Plain md P sc fs (.and es)
  | or {sc fs es} : (∀ e ∈ es, Plain md P sc fs e) → Plain md P sc fs (.or es)
  | progn {sc fs es} : (∀ e ∈ es, Plain md P sc fs e) → Plain md P sc fs (.progn es)
  | while {sc fs c es} : Plain md P sc fs c → (∀ e ∈ es, Plain md P sc fs e) → Plain md P sc fs (.while c es)
  | letp {sc fs bs es} : (∀ e ∈ bs.map Prod.snd, Plain md P sc fs e) → (bs.map Prod.fst).Nodup → (∀ e ∈ es, Plain md P (ext P (bs.map Prod.fst) sc) fs e) → Plain md P sc fs (.letp bs es)
  | letsNil {sc fs es} : (∀ e ∈ es, Plain md P sc fs e) → Plain md P sc fs (.lets [] es)
  | letsCons {sc fs x e bs es} : Plain md P sc fs e → x ∉ bs.map Prod.fst → Plain md P (ext P [x] sc) fs (.lets bs es) → Plain md P sc fs (.lets ((x, e) :: bs) es)
  | lam {sc fs ps es} : okParams md P sc ps → (∀ e ∈ es, Plain md P (ext P ps sc) fs e) → Plain md P sc fs (.lam ps es)
  | fn {sc fs f} : f ∈ fs → Plain md P sc fs (.fn f)
  | funcall {sc fs e args} : Plain md P sc fs e → (∀ a ∈ args, Plain md P sc fs a) → Plain md P sc fs (.funcall e args)
  | call {sc fs f args} : (f ∈ fs ∨ P.fns f ≠ none) → (∀ a ∈ args, Plain md P sc fs a) → Plain md P sc fs (.call f args)
  | flet {sc fs ds es} : md.locals = true → (∀ d ∈ ds, P.fns d.1 = none ∧ okParams md P sc d.2.1) → (∀ d ∈ ds, ∀ e ∈ d.2.2, Plain md P (ext P d.2.1 sc) fs e) →
      (∀ e ∈ es, Plain md P sc (extF ds fs) e) → Plain md P sc fs (.flet ds es)
  | labels {sc fs ds es} : md.locals = true → (∀ d ∈ ds, P.fns d.1 = none ∧ okParams md P sc d.2.1) → (∀ d ∈ ds, ∀ e ∈ d.2.2, Plain md P (ext P d.2.1 sc) (extF ds fs) e) →
      (∀ e ∈ es, Plain md P sc (extF ds fs) e) → Plain md P sc fs (.labels ds es)
  | prim {sc fs k args} : (∀ a ∈ args, Plain md P sc fs a) → Plain md P sc fs (.prim k args)

/-- The functions defined by `defun` are such programs too. -/
def PlainProg (md : Mode) (P : Prog) : Prop :=
  ∀ f ps body, P.fns f = some (ps, body) →
    ps.Nodup ∧ ((md.params || md.locals) = true → ∃ x ∈ ps, P.special x = false) ∧ ∀ e ∈ body, Plain md P (ext P ps []) [] e

end Eus.Lex
