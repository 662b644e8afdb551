set_option autoImplicit false
/-
The interpreter's control forms: lisp/c/eval.c, lisp/c/specials.c, lisp/c/eus.c, lisp/c/makes.c.

Every control form keeps a frame on the thread's stack; the context holds a pointer to the innermost
frame of each kind, and a frame holds pointers to others.  Here a chain of frames is a list (blocks, which
have two links, a tree), and each frame carries its position on the stack: the code compares
positions when it unwinds.  Frames that are reachable lie below the stack pointer
(`WF` and `eval_good`, Frames.lean), so that they are not overwritten.

`longjmp` is the outcome `jump`: it passes through all C functions up to the one whose frame is at the
position it carries.

The language is that of special variables, `setq`, `progn`, `if`, `let` of one special variable, `catch`,
`throw`, `block`, `return-from`, `tagbody`, `go`, `while`, `unwind-protect`, calls of functions without parameters, and
errors.  Lexical variables, `flet` and compiled code are left out, and so is running out of stack.
-/
namespace Eus.Ctl

/-- Values; a float is given by its bits. -/
inductive Val where
  | int (n : Int)
  | flt (bits : Nat)
  | sym (n : Nat)
deriving DecidableEq, Repr

/-- nil -/
def nil : Val := .sym 0

/-- What a block frame is known by: the name of a `block` or function, or the tags of a `tagbody` (eus.h:493-497: `kind` and `name`). -/
inductive Name where
  | blk (n : Nat)
  | tags (l : List Int)
deriving DecidableEq, Repr

/-- What is looked for: the name of a block, or a tag. -/
inductive Key where
  | blk (n : Nat)
  | tag (t : Int)
deriving DecidableEq, Repr

instance (n : Nat) : OfNat Name n := ⟨.blk n⟩
instance (n : Nat) : OfNat Key n := ⟨.blk n⟩

/-- specials.c:682-684: `kind==BLOCKFRAME && name==tag`; 766-767: `kind==TAGBODYFRAME && assq(tag,name)!=NIL`. -/
def Name.hits : Name → Key → Bool
  | .blk n, .blk m => n == m
  | .tags l, .tag t => l.contains t
  | _, _ => false

/-- Forms.  Special variables, blocks and functions are numbered; block 0 is the block named nil.  Tags are integers; the body of a
`tagbody` is a chain of `progn` with `label t rest` for the tag `t` and what follows it; `tagbody body cur` is going on at `cur`, a part
of the body. -/
inductive Tm where
  | const (v : Val)
  | var (x : Nat)
  | setq (x : Nat) (e : Tm)
  | print (e : Tm)
  | progn (a b : Tm)
  | ite (c a b : Tm)
  | lett (x : Nat) (e body : Tm)
  | call (f : Nat)
  | catch_ (tag body : Tm)
  | throw_ (tag e : Tm)
  | block (name : Name) (body : Tm)
  | retfrom (name : Key) (e : Tm)
  | protect (e cleanup : Tm)
  | loop (c body : Tm)
  | label (t : Int) (rest : Tm)
  | tagbody (body cur : Tm)
  | error_
deriving DecidableEq, Repr

/-- specials.c:365-388: `while` is a loop in a block named nil. -/
def Tm.while_ (c body : Tm) : Tm := .block 0 (.loop c body)

/-- specials.c:763-774 `go`: the frame with the tag is looked for, and the cell with the tag is what is passed: here the tag. -/
def Tm.go (t : Int) : Tm := .retfrom (.tag t) (.const (.int t))

/-- specials.c:736-761 `tagbody`, from the first form on. -/
def Tm.tagbody_ (body : Tm) : Tm := .tagbody body body

/-- specials.c:747-750: the tags. -/
def tagsOf : Tm → List Int
  | .label t r => t :: tagsOf r
  | .progn _ r => tagsOf r
  | _ => []

/-- specials.c:748-750, 767: what follows the tag.  `golist` is built backwards: of equal tags the last is found. -/
def after (t : Int) : Tm → Option Tm
  | .label u r => (match after t r with
    | some k => some k
    | none => if u = t then some r else none)
  | .progn _ r => after t r
  | _ => none

/-- The functions, and the error handler installed. -/
structure Prog where
  F : Nat → Tm
  handler : Option Nat

/-- eus.h:488-491 `struct specialbindframe` -/
structure SBind where
  pos : Nat
  sym : Nat
  oldval : Val
deriving DecidableEq, Repr

/-- eus.h:499-506 `struct catchframe` -/
structure Catch where
  pos : Nat
  label : Val
deriving DecidableEq, Repr

/-- eus.h:508-511 `struct protectframe`; the cleanup closure is its body. -/
structure Prot where
  pos : Nat
  cleaner : Tm
deriving DecidableEq, Repr

/-- eus.h:493-497 `struct blockframe` (of the kinds BLOCKFRAME and TAGBODYFRAME) -/
inductive Blk where
  | null
  | frame (pos : Nat) (name : Name) (dynklink lexklink : Blk)
deriving DecidableEq, Repr

/-- eus.h:528-548: the part of a thread's context used here, the values of the special variables, and
what was printed. -/
structure Ctx where
  vsp : Nat
  spec : Nat → Val
  sbindfp : List SBind
  catchfp : List Catch
  blkfp : Blk
  protfp : List Prot
  out : List Val

/-- Outcome: a value; a longjmp to the frame at `pos`; the default error handling (a break loop); C's
undefined behaviour; out of fuel. -/
inductive Res where
  | val (v : Val) (c : Ctx)
  | jump (pos : Nat) (v : Val) (c : Ctx)
  | fail (c : Ctx)
  | ub
  | timeout

/-- Sequencing. -/
def Res.bind : Res → (Val → Ctx → Res) → Res
  | .val v c, f => f v c
  | .jump p v c, _ => .jump p v c
  | .fail c, _ => .fail c
  | .ub, _ => .ub
  | .timeout, _ => .timeout

/-- specials.c:524, 663, eval.c:436: the value after a longjmp.  The word 1 stands for the integer 0,
but it is the float 0.0 as well (eus.h:815). -/
def received (v : Val) : Val := if v = .flt 0 then .int 0 else v

/-- One variable set. -/
def upd (s : Nat → Val) (x : Nat) (v : Val) : Nat → Val := fun y => if y = x then v else s y

/-- eval.c:165-178 `unbindspecial` -/
def unbindspecial (limit : Nat) : List SBind → (Nat → Val) → List SBind × (Nat → Val)
  | [], s => ([], s)
  | f :: fs, s => if limit ≤ f.pos then unbindspecial limit fs (upd s f.sym f.oldval) else (f :: fs, s)

/-- eus.c:289 `while (ctx->blkfp>p) ctx->blkfp=ctx->blkfp->dynklink;` -/
def dropBlk (p : Nat) : Blk → Blk
  | .null => .null
  | .frame pos name dyn lex => if pos > p then dropBlk p dyn else .frame pos name dyn lex

/-- eval.c:425-448: the end of `funlambda`, and 1628-1632 of `ufuncall`; `c` is the context at the call. -/
def funEnd (c : Ctx) (v : Val) (c' : Ctx) : Res :=
  let limit := match c.sbindfp with | [] => 0 | f :: _ => f.pos + 3
  let u := unbindspecial limit c'.sbindfp c'.spec
  .val v { c' with blkfp := c.blkfp, vsp := c.vsp, sbindfp := u.1, spec := u.2 }

/-- eval.c:1532-1538, 1597-1637 `ufuncall` and 346-448 `funlambda` for a function without parameters:
a call frame (2 words), a block frame (5 words) without lexical link, the body. -/
def callFn (rec : Tm → Ctx → Res) (name : Name) (body : Tm) (c : Ctx) : Res :=
  let b := c.vsp + 2
  match rec body { c with blkfp := .frame b name c.blkfp .null, vsp := b + 5 } with
  | .val v c' => funEnd c v c'
  | .jump p v c' => if p = b then funEnd c (received v) c' else .jump p v c'
  | r => r

/-- eus.c:286-293: the frames from `p` on are dropped. -/
def dropFrames (p : Nat) (c : Ctx) : Ctx :=
  let u := unbindspecial p c.sbindfp c.spec
  { c with sbindfp := u.1, spec := u.2, blkfp := dropBlk p c.blkfp, catchfp := c.catchfp.dropWhile (fun f => decide (f.pos > p)) }

/-- eus.c:274-293 `unwind`; at most `k` cleanup forms.  The closure has the name NIL (specials.c:720), so its
block is named nil. -/
def unwind (rec : Tm → Ctx → Res) : Nat → Nat → Ctx → Res
  | 0, _, _ => .timeout
  | k + 1, p, c =>
    match c.protfp with
    | [] => .val nil (dropFrames p c)
    | f :: fs =>
      if f.pos ≥ p then (callFn rec 0 f.cleaner { c with protfp := fs }).bind fun _ c' => unwind rec k p c'
      else .val nil (dropFrames p c)

/-- eus.c:295-395 `error`: the handler is called with its arguments on the stack; when there is none, or it
returns, the default handling follows. -/
def error (P : Prog) (rec : Tm → Ctx → Res) (c : Ctx) : Res :=
  match P.handler with
  | none => .fail c
  | some h => (callFn rec (.blk h) (P.F h) { c with vsp := c.vsp + 3 }).bind fun _ c' => .fail c'

/-- specials.c:533-542 `throw`, 560 -/
def throw (P : Prog) (rec : Tm → Ctx → Res) (k : Nat) (tag v : Val) (c : Ctx) : Res :=
  match c.catchfp.dropWhile (fun f => decide (f.label ≠ tag)) with
  | [] => error P rec c
  | f :: fs => (unwind rec k f.pos { c with catchfp := f :: fs }).bind fun _ c' =>
    match c'.catchfp with
    | [] => .ub
    | g :: _ => .jump g.pos v c'

/-- specials.c:523-531: the end of `catch`. -/
def catchEnd (v : Val) (c : Ctx) : Res :=
  match c.catchfp with
  | [] => .ub
  | f :: fs => .val v { c with vsp := f.pos, catchfp := fs }

/-- specials.c:681-690, 765-771: the block named `name`, or with the tag. -/
def findBlk (name : Key) : Blk → Option (Nat × Blk)
  | .null => none
  | .frame pos n dyn lex => if n.hits name then some (pos, .frame pos n dyn lex) else findBlk name lex

/-- The special forms and `print`; the call frame is on the stack already. -/
def form (P : Prog) (rec : Tm → Ctx → Res) (k : Nat) (t : Tm) (c : Ctx) : Res :=
  match t with
  | .const v => .val v c
  | .var x => .val (c.spec x) c
  -- specials.c:305-322, eval.c:75-78
  | .setq x e => (rec e c).bind fun v c => .val v { c with spec := upd c.spec x v }
  | .print e => (rec e c).bind fun v c => .val v { c with out := v :: c.out }
  -- eval.c:1698-1705
  | .progn a b => (rec a c).bind fun _ c => rec b c
  -- specials.c:329-343
  | .ite e a b => (rec e c).bind fun v c => if v ≠ nil then rec a c else rec b c
  -- specials.c:408-461 (one variable), eval.c:131-147
  | .lett x e body => (rec e c).bind fun v c1 =>
    let f : SBind := ⟨c1.vsp + 1, x, c1.spec x⟩
    (rec body { c1 with vsp := c1.vsp + 4, sbindfp := f :: c1.sbindfp, spec := upd c1.spec x v }).bind fun v c2 =>
      let u := unbindspecial c.vsp c2.sbindfp c2.spec
      .val v { c2 with vsp := c.vsp, sbindfp := u.1, spec := u.2 }
  | .call f => callFn rec (.blk f) (P.F f) c
  -- specials.c:507-531, makes.c:804-818
  | .catch_ tag body => (rec tag c).bind fun tag c =>
    match rec body { c with vsp := c.vsp + 6, catchfp := ⟨c.vsp, tag⟩ :: c.catchfp } with
    | .val v c' => catchEnd v c'
    | .jump p v c' => if p = c.vsp then catchEnd (received v) c' else .jump p v c'
    | r => r
  -- specials.c:544-560
  | .throw_ tag e => (rec tag c).bind fun tag c => (rec e c).bind fun v c => throw P rec k tag v c
  -- specials.c:647-668, makes.c:769-783
  | .block name body =>
    match rec body { c with vsp := c.vsp + 5, blkfp := .frame c.vsp name c.blkfp c.blkfp } with
    | .val v c' => .val v { c' with blkfp := c.blkfp, vsp := c.vsp }
    | .jump p v c' => if p = c.vsp then .val (received v) { c' with blkfp := c.blkfp, vsp := c.vsp } else .jump p v c'
    | r => r
  -- specials.c:670-691, 763-774
  | .retfrom name e =>
    match findBlk name c.blkfp with
    | none => error P rec { c with blkfp := .null }
    | some (p, b) => (rec e c).bind fun v c => (unwind rec k p { c with blkfp := b }).bind fun _ c' =>
      match c'.blkfp with
      | .null => .ub
      | .frame p _ _ _ => .jump p v c'
  -- specials.c:705-734
  | .protect e cleanup =>
    (rec e { c with vsp := c.vsp + 2, protfp := ⟨c.vsp, cleanup⟩ :: c.protfp }).bind fun v c1 =>
      (rec cleanup { c1 with vsp := c.vsp, protfp := c.protfp }).bind fun _ c2 => .val v c2
  -- specials.c:381-382
  | .loop e body => (rec e c).bind fun v c =>
    if v = nil then .val nil c else (rec body c).bind fun _ c => rec (.loop e body) c
  | .label _ r => rec r c
  -- specials.c:752-761: the frame is made anew here after each `go`, at the same place
  | .tagbody body cur => (rec (.block (.tags (tagsOf body)) (.progn cur (.const nil))) c).bind fun v c =>
    match v with
    | .int t => (match after t body with
      | some next => rec (.tagbody body next) c
      | none => .val nil c)
    | _ => .val nil c
  | .error_ => error P rec c

/-- eval.c:1641-1667 `eval`, 1532-1538, 1587-1596 `ufuncall` for special forms and built-in functions: a call
frame of two words. -/
def eval (P : Prog) : Nat → Tm → Ctx → Res
  | 0, _, _ => .timeout
  | n + 1, t, c =>
    match t with
    | .const v => .val v c
    | .var x => .val (c.spec x) c
    | .call f => callFn (eval P n) (.blk f) (P.F f) c
    | .loop e body => form P (eval P n) n (.loop e body) c
    | .tagbody body cur => form P (eval P n) n (.tagbody body cur) c
    | t => (form P (eval P n) n t { c with vsp := c.vsp + 2 }).bind fun v c' => .val v { c' with vsp := c.vsp }

/-- A thread with empty chains. -/
def start (spec : Nat → Val) : Ctx := ⟨1, spec, [], [], .null, [], []⟩

end Eus.Ctl
