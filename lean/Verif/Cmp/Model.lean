import Verif.Lex.Syntax
set_option autoImplicit false
/-
The compiler (lisp/comp/comp.l) with the translator that writes C (lisp/comp/trans.l), and what the C it writes does.

The C statements are represented by `Instr`, the C expressions by `CX`.  Modelled are the forms of Verif/Lex/Syntax; functions have required parameters only.  Inlined functions on numbers and
lists (`+`, `car`, `aref`...) are not in this model: builtin functions are called.  Declarations, object variables, `block`, `catch`, `tagbody` and `unwind-protect` (see Verif/Cex) are left out.
`*safety*` is 1 or more (the number of arguments is checked).
-/
namespace Eus.Cmp
open Eus.Lex (Sym Expr)

/-! ### The C code -/

/-- C expressions the translator keeps to be written later (trans.l:171-201, 279-281, 402-404, 600-603). -/
inductive CX where
  | nil
  | t
  | int (n : Int)
  /-- the variable `w` -/
  | w
  /-- `local[off]`, or of the closure d levels up -/
  | loc (d off : Nat)
  /-- `argv[off]`, or of the closure d levels up -/
  | arg (d off : Nat)
  /-- `loadglobal(x)` -/
  | glob (x : Sym)
  /-- `get_sym_func(f)` -/
  | func (f : Sym)
  /-- `makeclosure(codevec,quotevec,entry,env,argv,local)` -/
  | clo (entry : Nat)
  /-- `((x)==NIL?T:NIL)` -/
  | null (x : CX)
deriving DecidableEq, Repr

/-- Where C code stores. -/
inductive Dst where
  | w
  | loc (d off : Nat)
  | arg (d off : Nat)
deriving DecidableEq, Repr

def Dst.cx : Dst → CX
  | .w => .w
  | .loc d o => .loc d o
  | .arg d o => .arg d o

inductive Instr where
  /-- `d = x;` -/
  | set (d : Dst) (x : CX)
  /-- `storeglobal(x,e);` -/
  | storeglobal (x : Sym) (e : CX)
  /-- `ctx->vsp=local+k;` -/
  | vsp (k : Nat)
  /-- `bindspecial(ctx,x,w);` -/
  | bindspecial (x : Sym)
  /-- `unbindx(ctx,n);` -/
  | unbindx (n : Nat)
  /-- `w=f(ctx,n,local+k);` -/
  | call (f : Sym) (n k : Nat)
  /-- the same with a builtin function -/
  | prim (p : Nat) (n k : Nat)
  /-- the same with FUNCALL -/
  | funcall (n k : Nat)
  /-- `w=entry(ctx,n,local+k,w);` -/
  | callclo (entry n k : Nat)
  /-- `if (x==NIL) goto l;` -/
  | ifnil (x : CX) (l : Nat)
  /-- `if (x!=NIL) goto l;` -/
  | ift (x : CX) (l : Nat)
  | goto (l : Nat)
  | label (l : Nat)
  /-- `if (n!=r) maerror();` -/
  | argc (r : Nat)
  /-- `ctx->vsp=local; return(local[0]);` -/
  | ret
deriving DecidableEq, Repr

abbrev Code := List Instr

/-! ### The state of the compiler -/

/-- comp.l:137-144 `identifier`: its binding and offset; the closure level it is of. -/
inductive Bnd where
  | special | loc | arg
deriving DecidableEq, Repr

structure Ident where
  bnd : Bnd
  level : Nat
  off : Nat
deriving DecidableEq, Repr

/-- comp.l:899-905: a local function, the offset of its closure, the closure level, the C function. -/
structure Flet where
  name : Sym
  off : Nat
  level : Nat
  entry : Nat
deriving DecidableEq, Repr

abbrev Tab := List (List (Sym × Ident))

/-- comp.l:887-891, 906-909: a function to be compiled later, with the (deep) copy of the compiler made for it (comp.l:1423-1431). -/
structure Task where
  entry : Nat
  ps : List Sym
  body : List Expr
  frames : Tab
  scope : Nat
  cl : Nat
  flets : List Flet

/-- The compiler and the translator.  `frames`: the identifier table, the current level first, level 0 last; `cnt`: comp.l:186 `stack-frame`, the number of special variables and of local slots. -/
structure Comp where
  push : Option CX
  pc : Nat
  code : Code
  lab : Nat
  frames : Tab
  scope : Nat
  cl : Nat
  flets : List Flet
  cnt : List (Nat × Nat)
  tasks : List Task

namespace Comp

/-! ### trans.l -/

def emit (i : Instr) (c : Comp) : Comp := { c with code := c.code ++ [i] }

/-- comp.l:221 `:genlabel` -/
def gen (c : Comp) : Comp := { c with lab := c.lab + 1 }

/-- trans.l:71-75 `:clearpush` -/
def clear (c : Comp) : Comp :=
  match c.push with
  | none => c
  | some x => { c with push := none, pc := c.pc + 1, code := c.code ++ [.set (.loc 0 c.pc) x] }

/-- trans.l:68-70 `:push` -/
def pushx (x : CX) (c : Comp) : Comp := { c.clear with push := some x }

/-- trans.l:61-63 `:pop` -/
def popx (c : Comp) : CX × Comp :=
  match c.push with
  | some x => (x, { c with push := none })
  | none => (.loc 0 (c.pc - 1), { c with pc := c.pc - 1 })

/-- trans.l:64-67 `:store` -/
def store (d : Dst) (c : Comp) : Comp :=
  if c.push = some d.cx then { c with push := none } else emit (.set d c.popx.1) c.popx.2

/-- trans.l:88-91 `:dupe` -/
def dupe (c : Comp) : Comp :=
  if c.push = some .w then c.pushx .w else c.clear.pushx (.loc 0 (c.clear.pc - 1))

/-- trans.l:92-94 `:discard` -/
def discard (n : Nat) (c : Comp) : Comp :=
  match c.push with
  | some _ => { c with push := none, pc := c.pc - (n - 1) }
  | none => { c with pc := c.pc - n }

/-- trans.l:95 `:adjust` -/
def adjust (n : Nat) (c : Comp) : Comp := { c with pc := c.pc - n }

/-- trans.l:50-52 `:label` -/
def label (l : Nat) (c : Comp) : Comp := c.clear.emit (.label l)

/-- trans.l:100 `:reset-vsp` -/
def resetVsp (c : Comp) : Comp := c.emit (.vsp c.pc)

/-- trans.l:101-108 `:bind-special` -/
def bindSpecial (x : Sym) (c : Comp) : Comp :=
  let c := ((c.store .w).resetVsp).emit (.bindspecial x)
  { c with pc := c.pc + 3 }

/-- trans.l:109-114 `:unbind-special` -/
def unbindSpecial (n : Nat) (c : Comp) : Comp := (c.clear.resetVsp).emit (.unbindx n)

/-- trans.l:256-277 `:call`: i is the call, given the offset of the arguments. -/
def call (i : Nat → Instr) (n : Nat) (c : Comp) : Comp :=
  let c := c.clear.resetVsp
  ((c.emit (i (c.pc - n))).discard n).pushx .w

/-- trans.l:278-284 `:call-closure` -/
def callClosure (entry n : Nat) (c : Comp) : Comp :=
  let c := (c.store .w).resetVsp
  ((c.emit (.callclo entry n (c.pc - n))).discard n).pushx .w

/-- trans.l:566-569 `:del-frame` -/
def delFrame (spe loc : Nat) (c : Comp) : Comp := ((c.store .w).discard (3 * spe + loc)).pushx .w

/-- trans.l:619-623 `:closure` -/
def closure (entry : Nat) (c : Comp) : Comp := (c.clear.resetVsp).pushx (.clo entry)

/-- trans.l:559-561 `:jump` -/
def jump (l : Nat) (c : Comp) : Comp := c.clear.emit (.goto l)

/-- trans.l:480-483 `:if-nil`, `:if-t` -/
def ifNil (l : Nat) (c : Comp) : Comp := c.popx.2.emit (.ifnil c.popx.1 l)
def ifT (l : Nat) (c : Comp) : Comp := c.popx.2.emit (.ift c.popx.1 l)

/-- trans.l:562-565 `:return` -/
def return_ (c : Comp) : Comp := c.clear.emit .ret

/-- trans.l:475-476 `:nullx` -/
def nullx (c : Comp) : Comp := c.popx.2.pushx (.null c.popx.1)

/-! ### comp.l, identifiers -/

def setFrames (f : Tab) (c : Comp) : Comp := { c with frames := f }

def level (c : Comp) : Nat := c.frames.length - 1

/-- `assq` in one level -/
def assq (x : Sym) : List (Sym × Ident) → Option Ident
  | [] => none
  | (y, i) :: f => if y = x then some i else assq x f

/-- comp.l:158-162 `:get`, in these levels -/
def search (x : Sym) : Tab → Option Ident
  | [] => none
  | f :: fs => match assq x f with | some i => some i | none => search x fs

/-- comp.l:158-162 `:get` from the level given -/
def get (x : Sym) (lev : Nat) (c : Comp) : Option Ident := search x (c.frames.drop (c.level - lev))

/-- comp.l:156-157 `:find` -/
def find (x : Sym) (c : Comp) : Option Ident := assq x (c.frames.headD [])

/-- comp.l:163-165 `:enter` at the current level -/
def enterTop (x : Sym) (i : Ident) : Tab → Tab
  | [] => []
  | f :: fs => ((x, i) :: f) :: fs

/-- comp.l:166 `:enter-special`: at level 0 -/
def enterBase (x : Sym) (i : Ident) : Tab → Tab
  | [] => []
  | [f] => [(x, i) :: f]
  | f :: fs => f :: enterBase x i fs

variable (special : Sym → Bool)

/-- comp.l:278-291 `:variable`: an unknown variable is taken to be global, and entered at the current level (not at the scope). -/
def variable_ (x : Sym) (c : Comp) : Ident × Comp :=
  match c.get x c.scope with
  | some i => (i, c)
  | none =>
    let i : Ident := ⟨.special, 0, 0⟩
    (i, c.setFrames (if special x then enterBase x i c.frames else enterTop x i c.frames))

/-- The C expression for a variable, comp.l:363-375. -/
def varX (x : Sym) (i : Ident) (c : Comp) : CX :=
  match i.bnd with
  | .special => .glob x
  | .loc => .loc (c.cl - i.level) i.off
  | .arg => .arg (c.cl - i.level) i.off

/-- comp.l:359-375 `:load-var` -/
def loadVar (x : Sym) (c : Comp) : Comp :=
  let r := c.variable_ special x
  r.2.pushx (r.2.varX x r.1)

/-- comp.l:387-397 `:store-var` -/
def storeVar (x : Sym) (c : Comp) : Comp :=
  let r := c.variable_ special x
  match r.1.bnd with
  | .special => r.2.popx.2.emit (.storeglobal x r.2.popx.1)
  | .loc => r.2.store (.loc (c.cl - r.1.level) r.1.off)
  | .arg => r.2.store (.arg (c.cl - r.1.level) r.1.off)

/-- comp.l:296-300 `:special-variable-p` -/
def specialVar (x : Sym) (c : Comp) : Bool :=
  match c.find x with
  | none => special x
  | some i => i.bnd == .special

/-- Change the identifier of x in the current level. -/
def assqSet (x : Sym) (j : Ident) : List (Sym × Ident) → List (Sym × Ident)
  | [] => []
  | (y, i) :: f => if y = x then (y, j) :: f else (y, i) :: assqSet x j f

def setTop (x : Sym) (j : Ident) : Tab → Tab
  | [] => []
  | f :: fs => assqSet x j f :: fs

/-- comp.l:301-312 `:enter-variable` -/
def enterVariable (x : Sym) (c : Comp) : Comp :=
  match c.find x with
  | some _ => c
  | none => c.setFrames (enterTop x ⟨if special x then .special else .loc, c.cl, 0⟩ c.frames)

/-- Count a special variable or a local slot (comp.l:192-193). -/
def count (spe loc : Nat) (c : Comp) : Comp :=
  match c.cnt with
  | [] => c
  | (s, l) :: r => { c with cnt := (s + spe, l + loc) :: r }

/-- comp.l:313-331 `:bind`; arg: the binding is `arg`, otherwise `local`. -/
def bind (x : Sym) (arg : Bool) (off : Nat) (c : Comp) : Comp :=
  let c := c.enterVariable special x
  match c.find x with
  | some ⟨.special, _, _⟩ =>
    let c := c.count 1 0
    (if arg then c.pushx (.arg 0 off) else c).bindSpecial x
  | some i =>
    let c := if arg then c else c.count 0 1
    c.setFrames (setTop x ⟨if arg then .arg else .loc, i.level, off⟩ c.frames)
  | none => c

/-- comp.l:332-335 `:create-frame`.  The table has 20 levels (comp.l:176-178); beyond that the code writes past the end of an array: no code. -/
def createFrame (c : Comp) : Option Comp :=
  if c.frames.length < 20 then some { c with frames := [] :: c.frames, scope := c.frames.length, cnt := (0, 0) :: c.cnt } else none

/-- comp.l:336-345 `:delete-frame` -/
def deleteFrame (c : Comp) : Comp :=
  let n := c.cnt.headD (0, 0)
  let c := if 0 < n.1 then c.unbindSpecial n.1 else c
  let c := c.delFrame n.1 n.2
  { c with frames := c.frames.tail, scope := c.frames.length - 2, cnt := c.cnt.tail }

/-- comp.l:260-262: a local function. -/
def localFun (f : Sym) (c : Comp) : Option Flet := c.flets.find? (fun l => l.name == f)

/-- comp.l:887-891, 1423-1431 `:copy-compiler` -/
def addTask (entry : Nat) (ps : List Sym) (body : List Expr) (c : Comp) : Comp :=
  { c with tasks := c.tasks ++ [⟨entry, ps, body, c.frames, c.scope, c.cl + 1, c.flets⟩] }

def setScope (s : Nat) (c : Comp) : Comp := { c with scope := s }
def setFlets (f : List Flet) (c : Comp) : Comp := { c with flets := f }

/-- comp.l:910-911, 914 `:change-flets`, of the functions after the first n -/
def changeFlets (n : Nat) (c : Comp) : Comp :=
  { c with tasks := c.tasks.take n ++ (c.tasks.drop n).map fun t => { t with flets := c.flets } }

end Comp

open Comp

/-! ### comp.l, forms -/

/-- Forms one after the other, every value is kept on the stack. -/
def compArgs (cmp : Expr → Comp → Option Comp) : List Expr → Comp → Option Comp
  | [], c => some c
  | e :: es, c => (cmp e c).bind (compArgs cmp es)

/-- comp.l:227-232 `:progn` -/
def compProgn (cmp : Expr → Comp → Option Comp) : List Expr → Comp → Option Comp
  | [], c => some (c.pushx .nil)
  | [e], c => cmp e c
  | e :: es, c => (cmp e c).bind fun c => compProgn cmp es (c.discard 1)

/-- comp.l:730-740: the initial values of `let`; the result is the special variables with their offsets, the last one first. -/
def compInits (special : Sym → Bool) (cmp : Expr → Comp → Option Comp) : List (Sym × Expr) → List (Sym × Nat) → Comp → Option (List (Sym × Nat) × Comp)
  | [], sp, c => some (sp, c)
  | (x, e) :: bs, sp, c => (cmp e (c.setScope (c.level - 1))).bind fun c =>
    let c := c.clear
    if c.specialVar special x then compInits special cmp bs ((x, c.pc - 1) :: sp) (c.count 0 1)
    else compInits special cmp bs sp (c.bind special x false (c.pc - 1))

/-- comp.l:741-744 -/
def bindSpecials (special : Sym → Bool) : List (Sym × Nat) → Comp → Comp
  | [], c => c
  | (x, off) :: sp, c =>
    let c := c.clear
    bindSpecials special sp ((c.pushx (.loc 0 off)).bind special x false c.pc)

/-- comp.l:715-719: the variables of `let*` -/
def compSeq (special : Sym → Bool) (cmp : Expr → Comp → Option Comp) : List (Sym × Expr) → Comp → Option Comp
  | [], c => some c
  | (x, e) :: bs, c => (cmp e c).bind fun c => compSeq special cmp bs (c.clear.bind special x false (c.clear.pc - 1))

/-- comp.l:896-909: the functions of `flet` and `labels` -/
def compFuns : List (Sym × List Sym × List Expr) → Comp → Comp
  | [], c => c
  | (f, ps, body) :: ds, c =>
    let entry := c.lab
    let c := (c.gen.closure entry).clear
    compFuns ds ((c.setFlets (⟨f, c.pc - 1, c.cl, entry⟩ :: c.flets)).addTask entry ps body)

/-- comp.l:785-794 `:and`: the forms but the last -/
def compAnd (cmp : Expr → Comp → Option Comp) (l : Nat) : List Expr → Comp → Option Comp
  | [], c => some (c.pushx .nil)
  | [e], c => cmp e c
  | e :: es, c => (cmp e c).bind fun c => compAnd cmp l es ((c.dupe.ifNil l).discard 1)

/-- comp.l:795-803 `:or` -/
def compOr (cmp : Expr → Comp → Option Comp) (l : Nat) : List Expr → Comp → Option Comp
  | [], c => some (c.pushx .nil)
  | [e], c => cmp e c
  | e :: es, c => (cmp e c).bind fun c => compOr cmp l es ((c.dupe.ifT l).discard 1)

/-- Conditions one after the other, comp.l:631-633, 643-645. -/
def evconAll (evc : Bool → Nat → Expr → Comp → Option Comp) (b : Bool) (l : Nat) : List Expr → Comp → Option Comp
  | [], c => some c
  | e :: es, c => (evc b l e c).bind (evconAll evc b l es)

/-- comp.l:612-673 `:evcon`: jump to l if e is true (b = true) or if it is NIL (b = false); exactly one of the two labels is given. -/
def evconF (cmp : Expr → Comp → Option Comp) (evc : Bool → Nat → Expr → Comp → Option Comp) (b : Bool) (l : Nat) : Expr → Comp → Option Comp
  | .not e, c => evc (!b) l e c
  | .and (e :: es), c =>
    if b then (evconAll evc false c.lab (e :: es) c.gen).bind fun c' => some ((c'.jump l).label c.lab)
    else evconAll evc false l (e :: es) c
  | .or (e :: es), c =>
    if b then evconAll evc true l (e :: es) c
    else (evconAll evc true c.lab (e :: es) c.gen).bind fun c' => some ((c'.jump l).label c.lab)
  | e, c => (cmp e c).bind fun c => some (if b then c.ifT l else c.ifNil l)

/-- comp.l:233-259 `:eval`, 401-469 `:funcall`, 573-603 `:special-form` and the methods for special forms. -/
def compF (special : Sym → Bool) (cmp : Expr → Comp → Option Comp) (evc : Bool → Nat → Expr → Comp → Option Comp) : Expr → Comp → Option Comp
  | .nil, c => some (c.pushx .nil)
  | .t, c => some (c.pushx .t)
  | .int n, c => some (c.pushx (.int n))
  | .var x, c => some (c.loadVar special x)
  /- comp.l:686-708 `:setq` -/
  | .setq x e, c => (cmp e c).bind fun c =>
    let r := c.variable_ special x
    if r.1.bnd = .special then some (r.2.dupe.storeVar special x)
    else some ((r.2.storeVar special x).loadVar special x)
  /- comp.l:676-685 `:if` -/
  | .ite a b e, c =>
    let elselab := c.lab
    let exitlab := c.lab + 1
    (evc false elselab a c.gen.gen).bind fun c => (cmp b c).bind fun c => (cmp e (((c.jump exitlab).adjust 1).label elselab)).bind fun c => some (c.label exitlab)
  | .not e, c => (cmp e c).bind fun c => some c.nullx
  | .and es, c => (compAnd cmp c.lab es c.gen).bind fun c' => some (c'.label c.lab)
  | .or es, c => (compOr cmp c.lab es c.gen).bind fun c' => some (c'.label c.lab)
  | .progn es, c => compProgn cmp es c
  /- comp.l:770-784 `:while` -/
  | .while e body, c =>
    let whilent := c.lab
    let whilexit := c.lab + 1
    let blk := c.lab + 2
    (evc false whilexit e (c.gen.gen.clear.gen.label whilent)).bind fun c => (compProgn cmp body c).bind fun c =>
      some ((((((c.discard 1).jump whilent).label whilexit).pushx .nil).label blk))
  /- comp.l:723-747 `:let` -/
  | .letp bs body, c => c.createFrame.bind fun c => (compInits special cmp bs [] c).bind fun r =>
    let c := bindSpecials special r.1 r.2
    (compProgn cmp body (c.setScope c.level)).bind fun c => some c.deleteFrame
  /- comp.l:709-722 `:let*` -/
  | .lets bs body, c => c.createFrame.bind fun c => (compSeq special cmp bs c).bind fun c => (compProgn cmp body c).bind fun c => some c.deleteFrame
  /- comp.l:880-892 `:function` -/
  | .lam ps body, c => some ((c.gen.closure c.lab).addTask c.lab ps body)
  | .fn f, c =>
    match c.localFun f with
    | some l => some (c.pushx (.loc (c.cl - l.level) l.off))
    | none => some (c.pushx (.func f))
  | .funcall e args, c => (compArgs cmp (e :: args) c).bind fun c => some (c.call (fun k => .funcall (args.length + 1) k) (args.length + 1))
  /- comp.l:273-277 `:call-closure` -/
  | .call f args, c =>
    match c.localFun f with
    | some l => (compArgs cmp args c).bind fun c => some ((c.pushx (.loc (c.cl - l.level) l.off)).callClosure l.entry args.length)
    | none => (compArgs cmp args c).bind fun c => some (c.call (fun k => .call f args.length k) args.length)
  | .prim p args, c => (compArgs cmp args c).bind fun c => some (c.call (fun k => .prim p args.length k) args.length)
  /- comp.l:250-251: `((lambda ...) a b ...)` is taken as `(apply #'(lambda ...) (a b ...))`, with a as a function: no code -/
  | .lamcall .., _ => none
  /- comp.l:893-913 `:flet`; for `labels`, 910-911 -/
  | .flet ds body, c =>
    (compProgn cmp body (compFuns ds c)).bind fun c' => some ((c'.setFlets c.flets).delFrame 0 ds.length)
  | .labels ds body, c =>
    (compProgn cmp body ((compFuns ds c).changeFlets c.tasks.length)).bind fun c' => some ((c'.setFlets c.flets).delFrame 0 ds.length)

/-- `:eval` and `:evcon`, to a depth. -/
def comp (special : Sym → Bool) : Nat → (Expr → Comp → Option Comp) × (Bool → Nat → Expr → Comp → Option Comp)
  | 0 => (fun _ _ => none, fun _ _ _ _ => none)
  | n + 1 => (compF special (comp special n).1 (comp special n).2, evconF (comp special n).1 (comp special n).2)

/-- comp.l:1030-1033: the required parameters -/
def bindParams (special : Sym → Bool) : List Sym → Nat → Comp → Comp
  | [], _, c => c
  | x :: xs, i, c => bindParams special xs (i + 1) (c.bind special x true i)

/-- comp.l:945-1085 `:lambda` -/
def compLambda (special : Sym → Bool) (k : Nat) (ps : List Sym) (body : List Expr) (c : Comp) : Option Comp :=
  c.createFrame.bind fun c => (compProgn (comp special k).1 body (bindParams special ps 0 (c.emit (.argc ps.length)))).bind fun c => some c.deleteFrame

/-- comp.l:1165-1176 `:compile-a-closure`: the code, the functions to be compiled next, the label counter. -/
def compileTask (special : Sym → Bool) (k lab : Nat) (t : Task) : Option (Code × List Task × Nat) :=
  (compLambda special k t.ps t.body ⟨none, 0, [], lab, t.frames, t.scope, t.cl, t.flets, [], []⟩).bind fun c =>
    let c := c.return_
    some (c.code, c.tasks, c.lab)

/-- comp.l:1177-1180 `:compile-closures`, with the ones found on the way. -/
def compileClosures (special : Sym → Bool) (k : Nat) : Nat → List Task → Nat → Option (List (Nat × Code) × Nat)
  | 0, _, _ => none
  | _ + 1, [], lab => some ([], lab)
  | n + 1, t :: ts, lab => (compileTask special k lab t).bind fun r => (compileClosures special k n r.2.1 r.2.2).bind fun a => (compileClosures special k n ts a.2).bind fun b =>
    some ((t.entry, r.1) :: a.1 ++ b.1, b.2)

/-- comp.l:1086-1101 `:lambda-block`, 1112-1124 `:defun`.  Level 0 of the table, where special variables met before are kept, is taken to be empty. -/
def compileDefun (special : Sym → Bool) (k lab : Nat) (ps : List Sym) (body : List Expr) : Option (Code × List Task × Nat) :=
  (compLambda special k ps body ⟨none, 0, [], lab + 1, [[]], 0, 0, [], [], []⟩).bind fun c =>
    let c := (c.label lab).return_
    some (c.code, c.tasks, c.lab)

/-- What a compiled file defines: functions, and the C functions of closures. -/
structure Image where
  fns : List (Sym × Code)
  clos : List (Nat × Code)

/-- comp.l:1181-1188 `:toplevel-eval`, for the functions of a file. -/
def compileFile (special : Sym → Bool) (k : Nat) : List (Sym × List Sym × List Expr) → Nat → Option Image
  | [], _ => some ⟨[], []⟩
  | (f, ps, body) :: ds, lab => (compileDefun special k lab ps body).bind fun r => (compileClosures special k k r.2.1 r.2.2).bind fun a => (compileFile special k ds a.2).bind fun i =>
    some ⟨(f, r.1) :: i.fns, a.1 ++ i.clos⟩

/-! ### Running the code -/

/-- Values: makes.c:509-524 a closure with its C function and the closure, the arguments and the local variables it was made in; a function defined by `defun`. -/
inductive CVal where
  | nil
  | t
  | int (n : Int)
  | clo (entry : Nat) (env : Option CVal) (argv loc : Nat)
  | code (f : Sym)

/-- A word of the stack: a value or a part of a special bind frame (eus.h `specialbindframe`). -/
inductive Word where
  | val (v : CVal)
  | link (p : Option Nat)
  | sym (x : Sym)
  | old (v : Option CVal)

structure CState where
  mem : Nat → Word
  vsp : Nat
  /-- `ctx->sbindfp` -/
  sbp : Option Nat
  glob : Sym → Option CVal

/-- The variables of a C function: argv, n, local, env. -/
structure Act where
  argv : Nat
  n : Nat
  loc : Nat
  env : Option CVal

structure Frame where
  code : Code
  act : Act
  pc : Nat
  w : CVal

inductive Config where
  | run (fs : List Frame) (s : CState)
  | done (v : CVal) (s : CState)
  | err
  | ub

def CState.write (s : CState) (a : Nat) (w : Word) : CState := { s with mem := fun k => if k = a then w else s.mem k }
def CState.setGlob (s : CState) (x : Sym) (v : Option CVal) : CState := { s with glob := fun y => if y = x then v else s.glob y }

/-- `env->c.clo.env0->...c.clo.env1`, `env2`: argv and local, d closures up. -/
def envBase : Nat → Option CVal → Option (Nat × Nat)
  | 0, some (.clo _ _ av lo) => some (av, lo)
  | d + 1, some (.clo _ e _ _) => envBase d e
  | _, _ => none

/-- trans.l:160-170 `:getbase` -/
def base (a : Act) : Nat → Option (Nat × Nat)
  | 0 => some (a.argv, a.loc)
  | d + 1 => envBase d a.env

inductive XRes where
  | ok (v : CVal)
  | err
  | ub

/-- The value in a word of the stack. -/
def readW (s : CState) (a : Nat) : XRes := match s.mem a with | .val v => .ok v | _ => .ub

/-- The value of a C expression. -/
def evalX (fns : Sym → Bool) (a : Act) (w : CVal) (s : CState) : CX → XRes
  | .nil => .ok .nil
  | .t => .ok .t
  | .int n => .ok (.int n)
  | .w => .ok w
  | .loc d off => match base a d with | some (_, lo) => readW s (lo + off) | none => .ub
  | .arg d off => match base a d with | some (av, _) => readW s (av + off) | none => .ub
  /- compsub.c:17-33 `loadglobal` -/
  | .glob x => match s.glob x with | some v => .ok v | none => .err
  /- eval.c:109-113 `get_sym_func` -/
  | .func f => if fns f then .ok (.code f) else .err
  | .clo entry => .ok (.clo entry a.env a.argv a.loc)
  | .null x =>
    match evalX fns a w s x with
    | .ok .nil => .ok .t
    | .ok _ => .ok .nil
    | .err => .err
    | .ub => .ub

/-- Where a label is. -/
def labelAt (l : Nat) : Code → Option Nat
  | [] => none
  | i :: c => if i = .label l then some 0 else (labelAt l c).map (· + 1)

/-- eval.c:150-163 `unbindx` -/
def unbindN : Nat → CState → Option CState
  | 0, s => some s
  | n + 1, s =>
    match s.sbp with
    | none => none
    | some p =>
      match s.mem p, s.mem (p + 1), s.mem (p + 2) with
      | .link q, .sym x, .old v => unbindN n { s.setGlob x v with sbp := q }
      | _, _, _ => none

/-- What the arguments of a builtin function are. -/
def datumOf : Word → Option (Option Int)
  | .val .nil => some none
  | .val (.int n) => some (some n)
  | _ => none

def ofDatum : Option Int → CVal
  | none => .nil
  | some n => .int n

/-- n words of the stack from a on -/
def words (s : CState) (a : Nat) : Nat → List Word
  | 0 => []
  | n + 1 => s.mem a :: words s (a + 1) n

section
variable (fns : Sym → Option Code) (clos : Nat → Option Code) (builtin : Nat → List (Option Int) → Option (Option Int))

/-- Enter a C function. -/
def enter (code : Option Code) (act : Act) (fs : List Frame) (s : CState) : Config :=
  match code with
  | some c => .run (⟨c, act, 0, .nil⟩ :: fs) s
  | none => .err

/-- One statement. -/
def stepI (f : Frame) (fs : List Frame) (s : CState) : Instr → Config
  | .set d x =>
    match evalX (fun g => (fns g).isSome) f.act f.w s x with
    | .ok v =>
      match d with
      | .w => .run ({ f with pc := f.pc + 1, w := v } :: fs) s
      | .loc k off => match base f.act k with | some (_, lo) => .run ({ f with pc := f.pc + 1 } :: fs) (s.write (lo + off) (.val v)) | none => .ub
      | .arg k off => match base f.act k with | some (av, _) => .run ({ f with pc := f.pc + 1 } :: fs) (s.write (av + off) (.val v)) | none => .ub
    | .err => .err
    | .ub => .ub
  /- compsub.c:35-47 `storeglobal` -/
  | .storeglobal x e =>
    match evalX (fun g => (fns g).isSome) f.act f.w s e with
    | .ok v => .run ({ f with pc := f.pc + 1 } :: fs) (s.setGlob x (some v))
    | .err => .err
    | .ub => .ub
  | .vsp k => .run ({ f with pc := f.pc + 1 } :: fs) { s with vsp := f.act.loc + k }
  /- eval.c:131-147 `bindspecial` -/
  | .bindspecial x =>
    let s1 := ((s.write s.vsp (.link s.sbp)).write (s.vsp + 1) (.sym x)).write (s.vsp + 2) (.old (s.glob x))
    .run ({ f with pc := f.pc + 1 } :: fs) { s1.setGlob x (some f.w) with vsp := s.vsp + 3, sbp := some s.vsp }
  | .unbindx n => match unbindN n s with | some s' => .run ({ f with pc := f.pc + 1 } :: fs) s' | none => .ub
  /- trans.l:256-277, fcall.c:15-45 `fcallx`: undefined functions are errors -/
  | .call g n k => enter (fns g) ⟨f.act.loc + k, n, s.vsp, none⟩ ({ f with pc := f.pc + 1 } :: fs) s
  | .prim p n k =>
    match ((words s (f.act.loc + k) n).mapM datumOf).bind (builtin p) with
    | some d => .run ({ f with pc := f.pc + 1, w := ofDatum d } :: fs) s
    | none => .err
  /- specials.c:112-130 `FUNCALL`, eval.c:1544-1594 `ufuncall`; the call frame it makes on the stack is left out -/
  | .funcall n k =>
    match s.mem (f.act.loc + k) with
    | .val (.clo entry e av lo) => enter (clos entry) ⟨f.act.loc + k + 1, n - 1, s.vsp, some (.clo entry e av lo)⟩ ({ f with pc := f.pc + 1 } :: fs) s
    | .val (.code g) => enter (fns g) ⟨f.act.loc + k + 1, n - 1, s.vsp, none⟩ ({ f with pc := f.pc + 1 } :: fs) s
    | _ => .err
  | .callclo entry n k => enter (clos entry) ⟨f.act.loc + k, n, s.vsp, some f.w⟩ ({ f with pc := f.pc + 1 } :: fs) s
  | .ifnil x l =>
    match evalX (fun g => (fns g).isSome) f.act f.w s x with
    | .ok .nil => match labelAt l f.code with | some p => .run ({ f with pc := p } :: fs) s | none => .ub
    | .ok _ => .run ({ f with pc := f.pc + 1 } :: fs) s
    | .err => .err
    | .ub => .ub
  | .ift x l =>
    match evalX (fun g => (fns g).isSome) f.act f.w s x with
    | .ok .nil => .run ({ f with pc := f.pc + 1 } :: fs) s
    | .ok _ => match labelAt l f.code with | some p => .run ({ f with pc := p } :: fs) s | none => .ub
    | .err => .err
    | .ub => .ub
  | .goto l => match labelAt l f.code with | some p => .run ({ f with pc := p } :: fs) s | none => .ub
  | .label _ => .run ({ f with pc := f.pc + 1 } :: fs) s
  | .argc r => if f.act.n = r then .run ({ f with pc := f.pc + 1 } :: fs) s else .err
  | .ret =>
    match s.mem f.act.loc with
    | .val v =>
      match fs with
      | [] => .done v { s with vsp := f.act.loc }
      | g :: gs => .run ({ g with w := v } :: gs) { s with vsp := f.act.loc }
    | _ => .ub

def step : Config → Config
  | .run (f :: fs) s => match f.code[f.pc]? with | some i => stepI fns clos builtin f fs s i | none => .ub
  | .run [] _ => .ub
  | c => c

def stepN : Nat → Config → Config
  | 0, c => c
  | n + 1, c => stepN n (step fns clos builtin c)

end

/-- The code of a function of the image. -/
def Image.fn (i : Image) (f : Sym) : Option Code := (i.fns.find? (fun p => p.1 == f)).map Prod.snd
def Image.clo (i : Image) (e : Nat) : Option Code := (i.clos.find? (fun p => p.1 == e)).map Prod.snd

/-- A call of a function of the image with these arguments on an otherwise empty stack. -/
def Image.start (i : Image) (f : Sym) (args : List (Option Int)) (g : Sym → Option (Option Int)) : Config :=
  enter (i.fn f) ⟨0, args.length, args.length, none⟩ []
    ⟨fun a => match args[a]? with | some d => .val (ofDatum d) | none => .val .nil, args.length, none, fun x => (g x).map ofDatum⟩

end Eus.Cmp
