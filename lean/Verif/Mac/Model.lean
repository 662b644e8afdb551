set_option autoImplicit false
/-
The control macros of lisp/l/common.l (prog1, loop, unless, until, pop, push, inc, dec, incf, decf, pushnew,
dotimes, dolist, psetq, do, do*, prog, prog*, case) and `setf` of the list accessors, as the forms
they expand to; and the special forms they expand to.

Simplifications: variables are lexical, and a function called by a form does not see them, so a binding is
saved and restored; the special forms are taken as the other parts of this model describe them (C48, C94):
an exit passes outwards to the innermost block or tagbody of its name.  Closures are left out.  Functions
that a form calls, other than those named here, are arbitrary functions of their argument and the
world, and may be left by a throw or an error.  Declarations are ignored.  `gensym` returns a symbol
that occurs nowhere else.
-/
namespace Eus.Mac

/-- Variables: symbols of the program, and symbols made by gensym. -/
inductive Name where
  | user (n : Nat)
  | gen (n : Nat)
deriving DecidableEq, Repr

/-- Values. -/
inductive V where
  | nil
  | t
  | int (n : Int)
  | sym (n : Nat)
  | cell (a : Nat)
deriving DecidableEq, Repr

/-- The heap of cons cells, and what was printed. -/
structure World where
  car : Nat → V
  cdr : Nat → V
  next : Nat
  out : List V

/-- The state of a computation. -/
structure St where
  vars : Name → V
  w : World

/-- How a form is left: with a value, by `return-from` (the block's name), `go` (the tag), a throw or error out of
everything here, or not within the fuel. -/
inductive Res where
  | val (v : V) (s : St)
  | ret (n : Nat) (v : V) (s : St)
  | go (tag : Name) (s : St)
  | exit (v : V) (s : St)
  | timeout

/-- Built-in functions of one argument. -/
inductive P1 where
  | car | cdr | not_ | inc | dec | print
  /-- lists.c:274-279 `memq` with a quoted list of keys -/
  | memq (keys : List V)
deriving DecidableEq, Repr

/-- Built-in functions of two arguments. -/
inductive P2 where
  | cons | eq | lt | add | sub | rplaca2 | rplacd2
deriving DecidableEq, Repr

mutual
/-- Forms.  Block 0 is the block named nil. -/
inductive Tm where
  | const (v : V)
  | var (x : Name)
  | setq (x : Name) (e : Tm)
  | call1 (f : P1) (e : Tm)
  | call2 (f : P2) (e1 e2 : Tm)
  | ext (f : Nat) (e : Tm)
  | progn (a b : Tm)
  | ite (c a b : Tm)
  | letp (bs : Binds) (body : Tm)
  | lets (bs : Binds) (body : Tm)
  | block (n : Nat) (body : Tm)
  | ret (n : Nat) (e : Tm)
  | loop (c body : Tm)
  | tagfrom (all cur : Stmts)
  | go (tag : Name)
/-- Variables with initial values. -/
inductive Binds where
  | nil
  | cons (x : Name) (e : Tm) (rest : Binds)
/-- The body of a tagbody. -/
inductive Stmts where
  | nil
  | tag (t : Name) (rest : Stmts)
  | form (e : Tm) (rest : Stmts)
end

/-- specials.c:365-388 `while`: a loop in a block named nil. -/
def Tm.while_ (c body : Tm) : Tm := .block 0 (.loop c body)
/-- specials.c:736-766 `tagbody`. -/
def Tm.tagbody (b : Stmts) : Tm := .tagfrom b b
/-- specials.c:703 `return`. -/
def Tm.return_ (e : Tm) : Tm := .ret 0 e
def Tm.nil : Tm := .const .nil

/-- One variable set. -/
def upd (vars : Name → V) (x : Name) (v : V) : Name → V := fun y => if y = x then v else vars y

def St.set (s : St) (x : Name) (v : V) : St := { s with vars := upd s.vars x v }
/-- The variables of `xs` get back the values they have in `old`. -/
def St.restore (s old : St) (xs : List Name) : St :=
  { s with vars := fun y => if y ∈ xs then old.vars y else s.vars y }

/-- The form's value is passed on; an exit ends it. -/
def Res.bind : Res → (V → St → Res) → Res
  | .val v s, f => f v s
  | r, _ => r

/-- However a form is left, the bindings of a `let` end. -/
def Res.mapSt : Res → (St → St) → Res
  | .val v s, f => .val v (f s)
  | .ret n v s, f => .ret n v (f s)
  | .go t s, f => .go t (f s)
  | .exit v s, f => .exit v (f s)
  | .timeout, _ => .timeout

/-- The block `n` receives its value. -/
def Res.arrive (n : Nat) : Res → Res
  | .ret m v s => if m = n then .val v s else .ret m v s
  | r => r

/-- Built-in functions; `none`: an error. -/
def P1.run : P1 → V → World → Option (V × World)
  | .car, .cell a, w => some (w.car a, w)
  | .car, .nil, w => some (.nil, w)
  | .cdr, .cell a, w => some (w.cdr a, w)
  | .cdr, .nil, w => some (.nil, w)
  | .not_, v, w => some (if v = .nil then .t else .nil, w)
  | .inc, .int n, w => some (.int (n + 1), w)
  | .dec, .int n, w => some (.int (n - 1), w)
  | .memq keys, v, w => some (if v ∈ keys then .t else .nil, w)
  | .print, v, w => some (v, { w with out := v :: w.out })
  | _, _, _ => none

def P2.run : P2 → V → V → World → Option (V × World)
  | .cons, a, b, w => some (.cell w.next, { w with car := fun i => if i = w.next then a else w.car i,
                                                   cdr := fun i => if i = w.next then b else w.cdr i, next := w.next + 1 })
  | .eq, a, b, w => some (if a = b then .t else .nil, w)
  | .lt, .int a, .int b, w => some (if a < b then .t else .nil, w)
  | .add, .int a, .int b, w => some (.int (a + b), w)
  | .sub, .int a, .int b, w => some (.int (a - b), w)
  | .rplaca2, .cell a, v, w => some (v, { w with car := fun i => if i = a then v else w.car i })
  | .rplacd2, .cell a, v, w => some (v, { w with cdr := fun i => if i = a then v else w.cdr i })
  | _, _, _, _ => none

/-- What the other functions do: a value, or an exit. -/
abbrev Ext := Nat → V → World → Option (Bool × V × World)

/-- The variables of a `let`. -/
def Binds.names : Binds → List Name
  | .nil => []
  | .cons x _ rest => x :: rest.names

/-- specials.c:744-746 and `assq` in 778: what follows the tag; of several equal tags the last. -/
def Stmts.find (tag : Name) : Stmts → Option Stmts
  | .nil => none
  | .form _ rest => rest.find tag
  | .tag t rest => match rest.find tag with
    | some r => some r
    | none => if t = tag then some rest else none

/-- specials.c:436-444: the initial values, one after the other; then `k` with the list of values. -/
def evBinds (rec : Tm → St → Res) : Binds → St → (List V → St → Res) → Res
  | .nil, s, k => k [] s
  | .cons _ e rest, s, k => (rec e s).bind fun v s => evBinds rec rest s fun vs s => k (v :: vs) s

/-- specials.c:447-451: the variables are bound at once. -/
def bindAll : List Name → List V → St → St
  | x :: xs, v :: vs, s => bindAll xs vs (s.set x v)
  | _, _, s => s

/-- specials.c:487-496: the variables of `let*` are bound one after the other. -/
def evSeq (rec : Tm → St → Res) : Binds → Tm → St → Res
  | .nil, body, s => rec body s
  | .cons x e rest, body, s => (rec e s).bind fun v s1 =>
    (evSeq rec rest body (s1.set x v)).mapSt fun s2 => s2.restore s1 [x]

/-- The interpreter. -/
def eval (G : Ext) : Nat → Tm → St → Res
  | 0, _, _ => .timeout
  | k + 1, t, s =>
    match t with
    | .const v => .val v s
    | .var x => .val (s.vars x) s
    -- specials.c:305-322
    | .setq x e => (eval G k e s).bind fun v s => .val v (s.set x v)
    | .call1 f e => (eval G k e s).bind fun v s =>
      (f.run v s.w).elim (.exit .nil s) fun r => .val r.1 { s with w := r.2 }
    | .call2 f a b => (eval G k a s).bind fun x s => (eval G k b s).bind fun y s =>
      (f.run x y s.w).elim (.exit .nil s) fun r => .val r.1 { s with w := r.2 }
    | .ext f e => (eval G k e s).bind fun v s =>
      (G f v s.w).elim .timeout fun r => if r.1 then .exit r.2.1 { s with w := r.2.2 } else .val r.2.1 { s with w := r.2.2 }
    | .progn a b => (eval G k a s).bind fun _ s => eval G k b s
    -- specials.c:329-343
    | .ite c a b => (eval G k c s).bind fun v s => if v = .nil then eval G k b s else eval G k a s
    -- specials.c:408-461
    | .letp bs body => evBinds (eval G k) bs s fun vs s =>
      (eval G k body (bindAll bs.names vs s)).mapSt fun s' => s'.restore s bs.names
    -- specials.c:463-505
    | .lets bs body => evSeq (eval G k) bs body s
    -- specials.c:647-668
    | .block n body => (eval G k body s).arrive n
    -- specials.c:670-691
    | .ret n e => (eval G k e s).bind fun v s => .ret n v s
    -- specials.c:381-383
    | .loop c body => (eval G k c s).bind fun v s =>
      if v = .nil then .val .nil s else (eval G k body s).bind fun _ s => eval G k (.loop c body) s
    -- specials.c:751-762
    | .tagfrom _ .nil => .val .nil s
    | .tagfrom all (.tag _ rest) => eval G k (.tagfrom all rest) s
    | .tagfrom all (.form e rest) =>
      match eval G k e s with
      | .val _ s => eval G k (.tagfrom all rest) s
      | .go tag s => (all.find tag).elim (.go tag s) fun rest => eval G k (.tagfrom all rest) s
      | r => r
    -- specials.c:768-783
    | .go tag => .go tag s

/-! ### The macros -/

/-- common.l:90-93 -/
def prog1 (g : Nat) (first rest : Tm) : Tm := .letp (.cons (.gen g) first .nil) (.progn rest (.var (.gen g)))

/-- common.l:98-99 -/
def unless_ (pred body : Tm) : Tm := .ite (.call1 .not_ pred) body .nil
/-- common.l:100-101 -/
def until_ (c body : Tm) : Tm := .while_ (.call1 .not_ c) body

/-- common.l:102, with setf of a variable, common.l:1079. -/
def popVar (g : Nat) (x : Name) : Tm := prog1 g (.call1 .car (.var x)) (.setq x (.call1 .cdr (.var x)))
/-- common.l:103, place a variable. -/
def pushVar (item : Tm) (x : Name) : Tm := .setq x (.call2 .cons item (.var x))

/-- Statements followed by others. -/
def Stmts.append : Stmts → Stmts → Stmts
  | .nil, b => b
  | .tag t rest, b => .tag t (rest.append b)
  | .form e rest, b => .form e (rest.append b)

/-- common.l:95-97 `loop`. -/
def loopM (tag : Nat) (body : Stmts) : Tm :=
  .block 0 (.tagbody (.tag (.gen tag) (body.append (.form (.go (.gen tag)) .nil))))

/-- common.l:109-114 `inc` and `dec`, and 115-120 `incf` and `decf` of a variable: with an amount or without. -/
def incVar (x : Name) : Option Tm → Tm
  | none => .setq x (.call1 .inc (.var x))
  | some h => .setq x (.call2 .add (.var x) h)
def decVar (x : Name) : Option Tm → Tm
  | none => .setq x (.call1 .dec (.var x))
  | some h => .setq x (.call2 .sub (.var x) h)

/-- common.l:145-152. -/
def dotimes (g : Nat) (x : Name) (count result body : Tm) : Tm :=
  .letp (.cons x (.const (.int 0)) (.cons (.gen g) count .nil))
    (.progn (.while_ (.call2 .lt (.var x) (.var (.gen g))) (.progn body (.setq x (.call1 .inc (.var x))))) result)

/-- common.l:154-165. -/
def dolist (g g' : Nat) (x : Name) (list result body : Tm) : Tm :=
  .letp (.cons x .nil (.cons (.gen g) list .nil))
    (.progn (.while_ (.var (.gen g)) (.progn (.setq x (popVar g' (.gen g))) body)) result)

/-- common.l:212-221: the `let*` of psetq, and the setq; `gs` are the gensyms. -/
def psetqBinds : List Nat → List (Name × Tm) → Binds
  | g :: gs, (_, e) :: l => .cons (.gen g) e (psetqBinds gs l)
  | _, _ => .nil
def psetqSets : List Nat → List (Name × Tm) → Tm
  | g :: gs, (x, _) :: l => .progn (.setq x (.var (.gen g))) (psetqSets gs l)
  | _, _ => .nil
def psetq (gs : List Nat) (l : List (Name × Tm)) : Tm := .lets (psetqBinds gs l) (.progn (psetqSets gs l) .nil)

/-- One variable of `do`: its name, its initial value, and its step if there is one. -/
structure DoVar where
  x : Name
  init : Tm
  step : Option Tm

def doBinds : List DoVar → Binds
  | [] => .nil
  | v :: l => .cons v.x v.init (doBinds l)
/-- common.l:237-238 the variables with a step. -/
def doSteps : List DoVar → List (Name × Tm)
  | [] => []
  | v :: l => match v.step with
    | some e => (v.x, e) :: doSteps l
    | none => doSteps l

/-- The setq of several variables, specials.c:312-321. -/
def setqs : List (Name × Tm) → Tm
  | [] => .nil
  | (x, e) :: l => .progn (.setq x e) (setqs l)

/-- common.l:223-240 -/
def do_ (tag : Nat) (gs : List Nat) (vars : List DoVar) (test result : Tm) (body : Stmts) : Tm :=
  .block 0 (.letp (doBinds vars) (.tagbody (.tag (.gen tag) (.form (.ite test (.return_ result) .nil)
    (body.append (.form (psetq gs (doSteps vars)) (.form (.go (.gen tag)) .nil)))))))

/-- common.l:242-259 -/
def doStar (tag : Nat) (vars : List DoVar) (test result : Tm) (body : Stmts) : Tm :=
  .block 0 (.lets (doBinds vars) (.tagbody (.tag (.gen tag) (.form (.ite test (.return_ result) .nil)
    (body.append (.form (setqs (doSteps vars)) (.form (.go (.gen tag)) .nil)))))))

/-- common.l:262-265 `prog` -/
def prog (bs : Binds) (body : Stmts) : Tm := .block 0 (.letp bs (.tagbody body))
/-- common.l:266-269 `prog*` -/
def progStar (bs : Binds) (body : Stmts) : Tm := .block 0 (.lets bs (.tagbody body))

/-- The head of a clause of `case`: an atom, a list of keys, or t or otherwise. -/
inductive Head where
  | atom (v : V)
  | keys (l : List V)
  | otherwise_

/-- common.l:278-283 `casehead` -/
def casehead (k : Nat) : Head → Tm
  | .otherwise_ => .const .t
  | .atom v => .call2 .eq (.var (.gen k)) (.const v)
  | .keys l => .call1 (.memq l) (.var (.gen k))

/-- common.l:285-291 `case1` and 276 `casebody` -/
def case1 (k : Nat) : List (Head × Tm) → Tm
  | [] => .nil
  | (h, body) :: rest => .ite (casehead k h) body (case1 k rest)

/-- common.l:293-296 `case` -/
def case_ (k : Nat) (key : Tm) (clauses : List (Head × Tm)) : Tm :=
  .letp (.cons (.gen k) key .nil) (case1 k clauses)

/-! ### setf of list places -/

/-- car or cdr -/
inductive AD where | a | d
deriving DecidableEq, Repr

def AD.get : AD → P1
  | .a => .car
  | .d => .cdr
def AD.put : AD → P2
  | .a => .rplaca2
  | .d => .rplacd2

/-- The accessor c..r with these letters, `[.a, .d]` is cadr; lists.c:20-95: each is car and cdr from the right. -/
def cxr (l : List AD) (e : Tm) : Tm := l.foldr (fun x t => .call1 x.get t) e

/-- constants.l:241-270, the defsetf of car ... cddddr: which function, and the accessor of its first argument. -/
def setfTable : List (List AD × (P2 × List AD)) :=
  [([.a], (.rplaca2, [])), ([.d], (.rplacd2, [])),
   ([.a, .a], (.rplaca2, [.a])), ([.d, .a], (.rplacd2, [.a])), ([.a, .d], (.rplaca2, [.d])), ([.d, .d], (.rplacd2, [.d])),
   ([.a, .a, .a], (.rplaca2, [.a, .a])), ([.d, .a, .a], (.rplacd2, [.a, .a])),
   ([.a, .d, .a], (.rplaca2, [.d, .a])), ([.d, .d, .a], (.rplacd2, [.d, .a])),
   ([.a, .a, .d], (.rplaca2, [.a, .d])), ([.d, .a, .d], (.rplacd2, [.a, .d])),
   ([.a, .d, .d], (.rplaca2, [.d, .d])), ([.d, .d, .d], (.rplacd2, [.d, .d])),
   ([.a, .a, .a, .a], (.rplaca2, [.a, .a, .a])), ([.d, .a, .a, .a], (.rplacd2, [.a, .a, .a])),
   ([.a, .d, .a, .a], (.rplaca2, [.d, .a, .a])), ([.d, .d, .a, .a], (.rplacd2, [.d, .a, .a])),
   ([.a, .a, .d, .a], (.rplaca2, [.a, .d, .a])), ([.d, .a, .d, .a], (.rplacd2, [.a, .d, .a])),
   ([.a, .d, .d, .a], (.rplaca2, [.d, .d, .a])), ([.d, .d, .d, .a], (.rplacd2, [.d, .d, .a])),
   ([.a, .a, .a, .d], (.rplaca2, [.a, .a, .d])), ([.d, .a, .a, .d], (.rplacd2, [.a, .a, .d])),
   ([.a, .d, .a, .d], (.rplaca2, [.d, .a, .d])), ([.d, .d, .a, .d], (.rplacd2, [.d, .a, .d])),
   ([.a, .a, .d, .d], (.rplaca2, [.a, .d, .d])), ([.d, .a, .d, .d], (.rplacd2, [.a, .d, .d])),
   ([.a, .d, .d, .d], (.rplaca2, [.d, .d, .d])), ([.d, .d, .d, .d], (.rplacd2, [.d, .d, .d]))]

/-- common.l:1074-1094 `setf-expand-1` for a place `(c..r e)`; `none`: "SETF?" -/
def setfCxr (l : List AD) (e y : Tm) : Option Tm :=
  (setfTable.lookup l).map fun p => .call2 p.1 (cxr p.2 e) y

/-- common.l:103 `push`, 102 `pop`, 115-117 `incf` of such a place. -/
def pushCxr (item : Tm) (l : List AD) (e : Tm) : Option Tm := setfCxr l e (.call2 .cons item (cxr l e))
def popCxr (g : Nat) (l : List AD) (e : Tm) : Option Tm :=
  (setfCxr l e (.call1 .cdr (cxr l e))).map fun t => prog1 g (.call1 .car (cxr l e)) t
def incfCxr (l : List AD) (e : Tm) : Option Tm := setfCxr l e (.call1 .inc (cxr l e))

end Eus.Mac
