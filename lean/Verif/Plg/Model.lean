set_option autoImplicit false
/-
Portable Prolog: contrib/pprolog/pprolog.l:29-133.
A substitution (a cons whose cdr is an association list) is a number; the store tells its association list.
Running out of fuel (`none`) stands for not ending.  Simplified: variables are a separate kind of term (in the code symbols beginning with `*`),
predicates have user-defined clauses only (no `prolog_builtin`), goals and clauses are proper lists of terms.
-/
namespace Eus.Plg

/-- terms: variables, other atoms, conses -/
inductive Term where
  | var (n : Nat)
  | atom (n : Nat)
  | cons (a b : Term)
deriving DecidableEq, Repr

/-- substitution number to its bindings: variable, term and the substitution of the term -/
abbrev Store := Nat → List (Nat × Term × Nat)

/-- pprolog.l:37 `ASSIGNED?` -/
def assigned (σ : Store) (v e : Nat) : Option (Term × Nat) := ((σ e).find? (fun b => b.1 == v)).map (·.2)

/-- pprolog.l:59-66 `FETCH`: the term and the substitution left in `*SUBST*` -/
def fetch (σ : Store) : Nat → Term → Nat → Option (Term × Nat)
  | 0, _, _ => none
  | f + 1, .var v, e =>
    match assigned σ v e with
    | none => some (.var v, e)
    | some (t, e2) => fetch σ f t e2
  | _ + 1, t, e => some (t, e)

/-- pprolog.l:39-44 `LINK`: `tr` is `*UNDO-LIST*` -/
def link (σ : Store) (tr : List Nat) (v e : Nat) (t : Term) (e2 : Nat) : Store × List Nat :=
  (fun d => if d = e then (v, t, e2) :: σ e else σ d, e :: tr)

/-- pprolog.l:46-57 `UNIFY` -/
def unify : Nat → Store → List Nat → Term → Nat → Term → Nat → Option (Bool × Store × List Nat)
  | 0, _, _, _, _, _, _ => none
  | f + 1, σ, tr, x, ex, y, ey =>
    match x with
    | .var v =>
      match assigned σ v ex with
      | some _ =>
        match fetch σ f (.var v) ex with
        | none => none
        | some (t, e) => unify f σ tr t e y ey
      | none =>
        match fetch σ f y ey with
        | none => none
        | some (t, e) => some (true, link σ tr v ex t e)
    | .atom a =>
      match y with
      | .var w => unify f σ tr (.var w) ey (.atom a) ex
      | .atom b => some (a == b, σ, tr)
      | .cons _ _ => some (false, σ, tr)
    | .cons a b =>
      match y with
      | .var w => unify f σ tr (.var w) ey (.cons a b) ex
      | .atom _ => some (false, σ, tr)
      | .cons c d =>
        match unify f σ tr a ex c ey with
        | none => none
        | some (false, r) => some (false, r)
        | some (true, σ1, tr1) => unify f σ1 tr1 b ex d ey

/-- pprolog.l:87-90 `UNDO` -/
def undo (σ : Store) : List Nat → Store
  | [] => σ
  | e :: tr => undo (fun d => if d = e then (σ e).tail else σ d) tr

/-- a clause: `(head . body)` -/
structure Clause where
  head : Term
  body : List Term

/-- `(car term)` if it is the name of a predicate -/
def functor : Term → Option Nat
  | .cons (.atom p) _ => some p
  | _ => none

/-- pprolog.l:122, 138-145: `(GET (CAAR CLAUSE) 'PROLOG)` -/
def defs (prog : List Clause) (g : Term) : List Clause :=
  match functor g with
  | some p => prog.filter (fun c => functor c.head == some p)
  | none => []

/-- the store and the number of the next substitution -/
structure St where
  store : Store
  next : Nat

/-- pprolog.l:123-126: all the alternatives -/
def alts (k : Clause → St → Option (Bool × St)) : List Clause → St → Option (Bool × St)
  | [], s => some (false, s)
  | c :: cs, s =>
    match k c s with
    | none => none
    | some (true, s1) => some (true, s1)
    | some (false, s1) => alts k cs s1

/-- pprolog.l:119-121: the clause to refute: a variable is replaced by its value -/
def clauseOf (σ : Store) (f : Nat) (old : Nat) (g : Term) (gs : List Term) : Option (Term × List Term) :=
  match g with
  | .var v =>
    match fetch σ f (.var v) old with
    | none => none
    | some (t, _) => some (t, [])
  | _ => some (g, gs)

/-- pprolog.l:97-133 `REFUTES`, `REFUTEN`, `REFUTE`; true is `*PROVED*` -/
def refutes (prog : List Clause) : Nat → List Term → Nat → Nat → List (List Term × Nat) → St → Option (Bool × St)
  | 0, _, _, _, _, _ => none
  | f + 1, [], _, _, cue, s =>
    match cue with
    | [] => some (true, s)
    | (gs, e) :: cue1 => refutes prog f gs s.next e cue1 { s with next := s.next + 1 }
  | f + 1, g0 :: gs0, new, old, cue, s =>
    match clauseOf s.store f old g0 gs0 with
    | none => none
    | some (g, gs) =>
      alts (fun c s =>
        match unify f s.store [] g old c.head new with
        | none => none
        | some (false, σ, tr) => some (false, { s with store := undo σ tr })
        | some (true, σ, tr) =>
          match refutes prog f c.body s.next new ((gs, old) :: cue) { store := σ, next := s.next + 1 } with
          | none => none
          | some (true, s2) => some (true, s2)
          | some (false, s2) => some (false, { s2 with store := undo s2.store tr })) (defs prog g) s

/-- pprolog.l:159-166: a query -/
def query (prog : List Clause) (f : Nat) (gs : List Term) : Option (Bool × St) :=
  refutes prog f gs 0 1 [] { store := fun _ => [], next := 2 }

end Eus.Plg
