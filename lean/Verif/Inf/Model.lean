set_option autoImplicit false
/-
The infix notation read after `%`: lisp/l/mathtran.l.

What the reader hands over is a list of tokens.  Symbols are named by strings; numbers that are not integers are left out (the parser treats them like
symbols, except that it does not test their size).  `labels` and `multiple-value-setq` become plain functions; `letvar-alist`, which the parser changes as it
goes, is passed along.  The recursion of the parser is bounded by a number of steps, and `Res.out` says that the number was too small; `bound` is always
enough (`C160_answers`).
-/
namespace Eus.Inf

/-- What the reader gives: a symbol, an integer, or a list. -/
inductive Tok where
  | sym (s : String)
  | int (z : Int)
  | lst (l : List Tok)

/-- An atom: a symbol, an integer or NIL. -/
inductive Atom where
  | sym (s : String)
  | int (z : Int)
  | nil
deriving DecidableEq, Repr

/-- The forms that the parser makes: an atom; a symbol made by `gensym`; a list with a function in front; `(let ((temp e)) (* temp … temp))` with `n` times `temp`. -/
inductive Form where
  | atom (a : Atom)
  | gen (n : Nat)
  | app (f : Atom) (args : List Form)
  | letTemp (e : Form) (n : Nat)

mutual
/-- `equal` on forms (mathtran.l:22). -/
def Form.decEq : (a b : Form) → Decidable (a = b)
  | .atom a, .atom b => if h : a = b then isTrue (by rw [h]) else isFalse (by simpa using h)
  | .gen a, .gen b => if h : a = b then isTrue (by rw [h]) else isFalse (by simpa using h)
  | .app f as, .app g bs =>
    if h : f = g then
      match Form.decEqList as bs with
      | isTrue h' => isTrue (by rw [h, h'])
      | isFalse h' => isFalse (by simp [h'])
    else isFalse (by simp [h])
  | .letTemp e n, .letTemp e' n' =>
    if h : n = n' then
      match Form.decEq e e' with
      | isTrue h' => isTrue (by rw [h, h'])
      | isFalse h' => isFalse (by simp [h'])
    else isFalse (by simp [h])
  | .atom _, .gen _ => isFalse (by simp)
  | .atom _, .app _ _ => isFalse (by simp)
  | .atom _, .letTemp _ _ => isFalse (by simp)
  | .gen _, .atom _ => isFalse (by simp)
  | .gen _, .app _ _ => isFalse (by simp)
  | .gen _, .letTemp _ _ => isFalse (by simp)
  | .app _ _, .atom _ => isFalse (by simp)
  | .app _ _, .gen _ => isFalse (by simp)
  | .app _ _, .letTemp _ _ => isFalse (by simp)
  | .letTemp _ _, .atom _ => isFalse (by simp)
  | .letTemp _ _, .gen _ => isFalse (by simp)
  | .letTemp _ _, .app _ _ => isFalse (by simp)
/-- The same for lists of forms. -/
def Form.decEqList : (as bs : List Form) → Decidable (as = bs)
  | [], [] => isTrue rfl
  | [], _ :: _ => isFalse (by simp)
  | _ :: _, [] => isFalse (by simp)
  | a :: as, b :: bs =>
    match Form.decEq a b with
    | isTrue h =>
      match Form.decEqList as bs with
      | isTrue h' => isTrue (by rw [h, h'])
      | isFalse h' => isFalse (by simp [h'])
    | isFalse h => isFalse (by simp [h])
end

instance : DecidableEq Form := Form.decEq

/-- An entry of `letvar-alist` (mathtran.l:25): a form, the symbol for it, and how many times it was asked for. -/
structure Entry where
  form : Form
  var : Nat
  count : Nat
deriving DecidableEq

/-- `letvar-alist`, the last one pushed first. -/
abbrev St := List Entry

/-- What a step of the parser ends with: a result, an error, or too few steps. -/
inductive Res (α : Type) where
  | ok (a : α)
  | err
  | out
deriving DecidableEq, Repr

/-- `op` for a form with the operator `s` in front. -/
def op (s : String) (args : List Form) : Form := .app (.sym s) args

/-- The entry for a form gets one more reference: `(incf (third v))` (mathtran.l:23), on the first entry whose form is `equal`; none when there is no such entry. -/
def bump (f : Form) : St → Option (St × Nat)
  | [] => none
  | e :: st =>
    if e.form = f then some ({ e with count := e.count + 1 } :: st, e.var)
    else (bump f st).map fun p => (e :: p.1, p.2)

/-- `letvar` (mathtran.l:21-26).  `gensym` makes a symbol that is nowhere else; here the number of entries made so far. -/
def letvar (f : Form) (st : St) : Form × St :=
  match bump f st with
  | some (st', v) => (.gen v, st')
  | none => (.gen st.length, { form := f, var := st.length, count := 1 } :: st)

/-- A token that is not a cons, as an atom. -/
def Tok.atom? : Tok → Option Atom
  | .sym s => some (.sym s)
  | .int z => some (.int z)
  | .lst [] => some .nil
  | .lst (_ :: _) => none

/-- `(eq (first exp) 's)`. -/
def headIs (s : String) : List Tok → Bool
  | .sym t :: _ => t == s
  | _ => false

/-- `(memq (first exp) '(* /))`: which one. -/
def mulOp : List Tok → Option String
  | .sym t :: _ => if t = "*" ∨ t = "/" then some t else none
  | _ => none

/-- `(memq (first exp) '(+ -))`: which one. -/
def addOp : List Tok → Option String
  | .sym t :: _ => if t = "+" ∨ t = "-" then some t else none
  | _ => none

/-- The table of relations (mathtran.l:99-103): the name in infix notation and the function. -/
def relOps : List (String × String) :=
  [("==", "="), ("!=", "/="), ("/=", "/="), ("<", "<"), ("<=", "<="), (">", ">"), (">=", ">=")]

/-- `(pop exp)` and the look into the table of relations (mathtran.l:98-103). -/
def relOp : List Tok → Option String
  | .sym t :: _ => relOps.lookup t
  | _ => none

/-- Whether a form is an atom for the parser (`(atom left)`, mathtran.l:53): an atom or the symbol made by `letvar`. -/
def Form.isAtom : Form → Bool
  | .atom _ => true
  | .gen _ => true
  | _ => false

/-- What `factor` makes of a base and an exponent (mathtran.l:50-59): an integer below 10 gives a product, of the base itself if it is an atom, of `temp` otherwise. -/
def power (left right : Form) (st : St) : Form × St :=
  match right with
  | .atom (.int z) =>
    if z < 10 then
      if left.isAtom then letvar (op "*" (List.replicate z.toNat left)) st
      else (.letTemp left z.toNat, st)
    else (op "expt" [left, right], st)
  | _ => (op "expt" [left, right], st)

mutual
/-- `factor1` (mathtran.l:27-43). -/
def factor1 (lhs : Bool) : Nat → List Tok → St → Res (Form × List Tok × St)
  | 0, _, _ => .out
  | n + 1, exp, st =>
    match exp with
    | [] => .ok (.atom .nil, [], st)
    | t :: rest =>
      match t.atom? with
      | none =>
        match t with
        | .lst l =>
          match expr lhs n l st with
          | .ok (f, [], st') => .ok (f, rest, st')
          | .ok _ => .err
          | .err => .err
          | .out => .out
        | _ => .err
      | some a =>
        match rest with
        | .lst (x :: xs) :: rest' =>
          if headIs "aref" (x :: xs) then
            match exprList lhs n xs st with
            | .ok (args, st') =>
              let form := op "aref" (.atom a :: args)
              if lhs then .ok (form, rest', st')
              else
                let p := letvar form st'
                .ok (p.1, rest', p.2)
            | .err => .err
            | .out => .out
          else
            match exprList lhs n (x :: xs) st with
            | .ok (args, st') =>
              let p := letvar (.app a args) st'
              .ok (p.1, rest', p.2)
            | .err => .err
            | .out => .out
        | _ => .ok (.atom a, rest, st)

/-- `factor` (mathtran.l:44-61). -/
def factor (lhs : Bool) : Nat → List Tok → St → Res (Form × List Tok × St)
  | 0, _, _ => .out
  | n + 1, exp, st =>
    match factor1 lhs n exp st with
    | .ok (left, exp, st) =>
      if headIs "**" exp then
        match factor1 lhs n exp.tail st with
        | .ok (right, exp, st) =>
          let p := power left right st
          .ok (p.1, exp, p.2)
        | .err => .err
        | .out => .out
      else .ok (left, exp, st)
    | .err => .err
    | .out => .out

/-- `term` (mathtran.l:62-75). -/
def term (lhs : Bool) : Nat → List Tok → St → Res (Form × List Tok × St)
  | 0, _, _ => .out
  | n + 1, exp, st =>
    match factor lhs n exp st with
    | .ok (left, exp, st) =>
      match mulOp exp with
      | some o => termLoop lhs n o [left] exp st
      | none => .ok (left, exp, st)
    | .err => .err
    | .out => .out

/-- The two loops of `term` (mathtran.l:68-73): while the same operator comes, its operands are added to the form being made; with another one of `*` and `/` the form made becomes the first operand of the next. -/
def termLoop (lhs : Bool) : Nat → String → List Form → List Tok → St → Res (Form × List Tok × St)
  | 0, _, _, _, _ => .out
  | n + 1, o, args, exp, st =>
    if headIs o exp then
      match factor lhs n exp.tail st with
      | .ok (right, exp, st) => termLoop lhs n o (args ++ [right]) exp st
      | .err => .err
      | .out => .out
    else
      match mulOp exp with
      | some o' => termLoop lhs n o' [op o args] exp st
      | none => .ok (op o args, exp, st)

/-- `expr` (mathtran.l:76-88). -/
def expr (lhs : Bool) : Nat → List Tok → St → Res (Form × List Tok × St)
  | 0, _, _ => .out
  | n + 1, exp, st =>
    match term lhs n (if (addOp exp).isSome then exp.tail else exp) st with
    | .ok (left, exp', st) =>
      let left := if addOp exp = some "-" then op "-" [left] else left
      if (addOp exp').isSome then exprLoop lhs n [left] exp' st
      else .ok (left, exp', st)
    | .err => .err
    | .out => .out

/-- The loop of `expr` (mathtran.l:84-87). -/
def exprLoop (lhs : Bool) : Nat → List Form → List Tok → St → Res (Form × List Tok × St)
  | 0, _, _, _ => .out
  | n + 1, args, exp, st =>
    match addOp exp with
    | some o =>
      match term lhs n exp.tail st with
      | .ok (right, exp, st) => exprLoop lhs n (args ++ [if o = "-" then op "-" [right] else right]) exp st
      | .err => .err
      | .out => .out
    | none => .ok (op "+" args, exp, st)

/-- `expr-list` (mathtran.l:89-94). -/
def exprList (lhs : Bool) : Nat → List Tok → St → Res (List Form × St)
  | 0, _, _ => .out
  | n + 1, exp, st =>
    match exp with
    | [] => .ok ([], st)
    | t :: ts =>
      match expr lhs n (t :: ts) st with
      | .ok (f, exp, st) =>
        match exprList lhs n exp st with
        | .ok (fs, st) => .ok (f :: fs, st)
        | .err => .err
        | .out => .out
      | .err => .err
      | .out => .out
end

/-- `rel-expr` (mathtran.l:95-105).  The token after the first expression is taken away whatever it is. -/
def relExpr (lhs : Bool) (n : Nat) (exp : List Tok) (st : St) : Res (Form × List Tok × St) :=
  match expr lhs n exp st with
  | .ok (left, exp, st) =>
    match relOp exp with
    | some o =>
      match expr lhs n exp.tail st with
      | .ok (right, exp, st) => .ok (op o [left, right], exp, st)
      | .err => .err
      | .out => .out
    | none => .ok (left, exp.tail, st)
  | .err => .err
  | .out => .out

mutual
/-- `nsubst` (lists.c:251-257) of a form for a symbol made by `letvar`.  It changes the cells in place; the forms it changes are shared with nothing that is used afterwards. -/
def Form.subst (v : Nat) (g : Form) : Form → Form
  | .atom a => .atom a
  | .gen m => if m = v then g else .gen m
  | .app f args => .app f (substList v g args)
  | .letTemp e n => .letTemp (Form.subst v g e) n
def substList (v : Nat) (g : Form) : List Form → List Form
  | [] => []
  | f :: fs => Form.subst v g f :: substList v g fs
end

/-- What `%` expands into: `(let* (pairs) body)`, or `body` when there are no pairs. -/
structure Prog where
  lets : List (Nat × Form)
  body : Form
deriving DecidableEq

/-- `reconstruct-form` (mathtran.l:106-116): a form asked for more than once is bound by `let*`, the others take the place of their symbols. -/
def reconstruct : St → Prog → Prog
  | [], p => p
  | e :: st, p =>
    if e.count > 1 then reconstruct st { p with lets := (e.var, e.form) :: p.lets }
    else reconstruct st { p with body := Form.subst e.var e.form p.body }

mutual
/-- How many tokens there are in all. -/
def Tok.size : Tok → Nat
  | .sym _ => 1
  | .int _ => 1
  | .lst l => sizeList l + 1
def sizeList : List Tok → Nat
  | [] => 0
  | t :: ts => t.size + sizeList ts
end

/-- A number of steps that is always enough. -/
def bound (exp : List Tok) : Nat := 10 * sizeList exp + 10

/-- `expression` with a given number of steps. -/
def expressionN (lhs : Bool) (n : Nat) (exp : List Tok) : Res Prog :=
  match relExpr lhs n exp [] with
  | .ok (f, [], st) => .ok (reconstruct st { lets := [], body := f })
  | .ok _ => .err
  | .err => .err
  | .out => .out

/-- `expression` (mathtran.l:18-119). -/
def expression (lhs : Bool) (exp : List Tok) : Res Prog := expressionN lhs (bound exp) exp

/-- What the functions mean. -/
structure Interp (V : Type) where
  fn : String → List V → V
  int : Int → V
  nil : V

mutual
/-- The value of a form: a symbol's value, or the function applied to the values of the arguments.  A number or NIL in front is no function; NIL stands for the error. -/
def Form.eval {V : Type} (I : Interp V) (ρ : String → V) (γ : Nat → V) : Form → V
  | .atom (.sym s) => ρ s
  | .atom (.int z) => I.int z
  | .atom .nil => I.nil
  | .gen n => γ n
  | .app (.sym f) args => I.fn f (evalList I ρ γ args)
  | .app _ _ => I.nil
  | .letTemp e n => I.fn "*" (List.replicate n (Form.eval I ρ γ e))
def evalList {V : Type} (I : Interp V) (ρ : String → V) (γ : Nat → V) : List Form → List V
  | [] => []
  | f :: fs => Form.eval I ρ γ f :: evalList I ρ γ fs
end

/-- The value of `(let* pairs body)`: the pairs are evaluated in order, each with those before. -/
def Prog.evalFrom {V : Type} (I : Interp V) (ρ : String → V) (body : Form) : (Nat → V) → List (Nat × Form) → V
  | γ, [] => body.eval I ρ γ
  | γ, (v, f) :: ls => Prog.evalFrom I ρ body (fun m => if m = v then f.eval I ρ γ else γ m) ls

/-- The value of what `%` expands into.  `γ` gives the values that the symbols made by `gensym` would have if they were not bound. -/
def Prog.eval {V : Type} (I : Interp V) (ρ : String → V) (γ : Nat → V) (p : Prog) : V := Prog.evalFrom I ρ p.body γ p.lets

mutual
/-- The calls of functions, in the order in which they are made when a form is evaluated: function and arguments.  The operators of the notation and `aref` are not counted. -/
def Form.calls {V : Type} (I : Interp V) (ρ : String → V) (γ : Nat → V) : Form → List (String × List V)
  | .atom _ => []
  | .gen _ => []
  | .app (.sym f) args =>
    callsList I ρ γ args ++
      (if f ∈ ["+", "-", "*", "/", "expt", "aref", "=", "/=", "<", "<=", ">", ">="] then [] else [(f, evalList I ρ γ args)])
  | .app _ args => callsList I ρ γ args
  | .letTemp e _ => Form.calls I ρ γ e
def callsList {V : Type} (I : Interp V) (ρ : String → V) (γ : Nat → V) : List Form → List (String × List V)
  | [] => []
  | f :: fs => Form.calls I ρ γ f ++ callsList I ρ γ fs
end

/-- The calls made by `(let* pairs body)`. -/
def Prog.callsFrom {V : Type} (I : Interp V) (ρ : String → V) (body : Form) : (Nat → V) → List (Nat × Form) → List (String × List V)
  | γ, [] => body.calls I ρ γ
  | γ, (v, f) :: ls => f.calls I ρ γ ++ Prog.callsFrom I ρ body (fun m => if m = v then f.eval I ρ γ else γ m) ls

/-- The calls made by what `%` expands into. -/
def Prog.calls {V : Type} (I : Interp V) (ρ : String → V) (γ : Nat → V) (p : Prog) : List (String × List V) := Prog.callsFrom I ρ p.body γ p.lets

/-- What `%` is replaced with by the reader: an expression; `(setq x e)`; `(setf place e)`. -/
inductive Top where
  | value (p : Prog)
  | setq (x : Atom) (p : Prog)
  | setf (place p : Prog)
deriving DecidableEq

/-- `infix2prefix` (mathtran.l:121-131) on a list.  A symbol after `%`, which makes it read one more form, is left out.  A list in the place of `x` in `(x = e)` makes a `setq` of a list, which is an error. -/
def infix2prefix (exp : List Tok) : Res Top :=
  if headIs "=" (exp.drop 1) then
    match exp.head?.bind Tok.atom?, expression false (exp.drop 2) with
    | some x, .ok p => .ok (.setq x p)
    | some _, .out => .out
    | _, _ => .err
  else if headIs "=" (exp.drop 2) then
    match expression true (exp.take 2), expression false (exp.drop 3) with
    | .ok l, .ok p => .ok (.setf l p)
    | .out, _ => .out
    | .err, _ => .err
    | _, .out => .out
    | _, .err => .err
  else
    match expression false exp with
    | .ok p => .ok (.value p)
    | .err => .err
    | .out => .out

end Eus.Inf
