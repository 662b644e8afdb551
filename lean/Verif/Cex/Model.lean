import Verif.Ctl.Model
set_option autoImplicit false
/-
Exits in compiled code: what the C that the compiler (lisp/comp/comp.l, trans.l) writes for `let` of special variables, `catch`, `throw`,
`block`, `return-from`, `tagbody`, `go`, `while`, `unwind-protect` and calls does.

The forms are those of Verif/Ctl.  A `goto` of the C code is an outcome here, which the form that carries the label receives.  What is known when the form is compiled - the number of
words in use (`pushcount`), the blocks and `unwind-frames` - is in `Site`.  Frames are in lists as in Verif/Ctl, with their places on the stack; a store into a word of
a frame in force is the outcome `ub`.  Values wait in `local[]` or the C variable `w`; which of them is in Verif/Cmp and left out here.
Functions have no parameters; those called are in the same file (trans.l:256-262, called directly).
-/
namespace Eus.Cex
open Eus.Ctl (Val nil Tm Name Key Prog SBind Catch Prot unbindspecial upd received tagsOf after)

/-- eus.h:528-548: the part of a thread's context used by compiled code; the stack pointer is set anew before each use (trans.l:100) and so an argument here. -/
structure Ctx where
  spec : Nat → Val
  sbindfp : List SBind
  catchfp : List Catch
  protfp : List Prot
  out : List Val

/-- Outcome: a value; a `goto` to a label of the C function, with the value stored; a longjmp to the frame at `pos`; the default error handling; the compiler
refuses the form (comp.l:850-853, 875); C's undefined behaviour; out of fuel. -/
inductive Res where
  | val (v : Val) (c : Ctx)
  | goto (l : Nat) (v : Val) (c : Ctx)
  | jump (pos : Nat) (v : Val) (c : Ctx)
  | fail (c : Ctx)
  | nocode
  | ub
  | timeout

/-- Sequencing. -/
def Res.bind : Res → (Val → Ctx → Res) → Res
  | .val v c, f => f v c
  | r, _ => r

/-- comp.l:203-216: the place of `local` on the stack; `pushcount`; `blocks` and `tags` with their labels and offsets; `unwind-frames`. -/
structure Site where
  base : Nat
  off : Nat
  blocks : List (Name × Nat × Nat)
  uw : List Nat

/-- The first free word. -/
def Site.top (S : Site) : Nat := S.base + S.off

/-- `local[i]=...` writes to the stack at `p`: there must be no frame in force from there on. -/
def put (p : Nat) (c : Ctx) (r : Res) : Res :=
  if c.sbindfp.all (fun f => decide (f.pos + 3 ≤ p)) && c.catchfp.all (fun f => decide (f.pos + 6 ≤ p)) && c.protfp.all (fun f => decide (f.pos + 2 ≤ p)) then r else .ub

/-- eus.c:286-291: the frames from `p` on are dropped; but of the catch frames only those after `p`. -/
def dropFrames (p : Nat) (c : Ctx) : Ctx :=
  let u := unbindspecial p c.sbindfp c.spec
  { c with sbindfp := u.1, spec := u.2, catchfp := c.catchfp.dropWhile (fun f => decide (f.pos > p)) }

/-- eus.c:274-293 `unwind`; `run` calls a cleanup closure with `local` at the given place (after the call frame of `ufuncall`). -/
def unwind (run : Tm → Nat → Ctx → Res) (vsp : Nat) : Nat → Nat → Ctx → Res
  | 0, _, _ => .timeout
  | k + 1, p, c =>
    match c.protfp with
    | [] => .val nil (dropFrames p c)
    | f :: fs =>
      if f.pos ≥ p then (run f.cleaner (vsp + 2) { c with protfp := fs }).bind fun _ c' => unwind run vsp k p c'
      else .val nil (dropFrames p c)

/-- comp.l:1086-1097 `:lambda-block`: the function is a block at offset 0. -/
def callFn (P : Prog) (rec : Tm → Site → Ctx → Res) (f base : Nat) (c : Ctx) : Res :=
  match rec (P.F f) ⟨base, 0, [(.blk f, 0, 0)], []⟩ c with
  | .goto l v c' => if l = 0 then .val v c' else .goto l v c'
  | r => r

/-- comp.l:816-830: a cleanup form is compiled as a closure of its own.  (Its `unwind-frames` are those of the place where it is; as nothing of this closure
is on the stack then, unwinding for them does nothing, and they are left out.) -/
def runCleaner (rec : Tm → Site → Ctx → Res) (t : Tm) (base : Nat) (c : Ctx) : Res := rec t ⟨base, 0, [], []⟩ c

/-- eus.c:295-395 `error`: three arguments and a call frame. -/
def error (P : Prog) (rec : Tm → Site → Ctx → Res) (vsp : Nat) (c : Ctx) : Res :=
  match P.handler with
  | none => .fail c
  | some h => (callFn P rec h (vsp + 5) c).bind fun _ c' => .fail c'

/-- specials.c:533-542 `throw`, trans.l:556-560 -/
def throw (P : Prog) (rec : Tm → Site → Ctx → Res) (k : Nat) (vsp : Nat) (tag v : Val) (c : Ctx) : Res :=
  match c.catchfp.dropWhile (fun f => decide (f.label ≠ tag)) with
  | [] => error P rec vsp c
  | f :: fs => (unwind (runCleaner rec) vsp k f.pos { c with catchfp := f :: fs }).bind fun _ c' =>
    match c'.catchfp with
    | [] => .ub
    | g :: _ => .jump g.pos v c'

/-- trans.l:548-553 `:exitcatch`, compsub.c:78-84 `restorecatch` -/
def exitcatch (v : Val) (c : Ctx) : Res :=
  match c.catchfp with
  | [] => .ub
  | _ :: fs => .val (received v) { c with catchfp := fs }

/-- eval.c:149-163 `unbindx` with count 1 -/
def unbindx (v : Val) (c : Ctx) : Res :=
  match c.sbindfp with
  | [] => .ub
  | f :: fs => .val v { c with sbindfp := fs, spec := upd c.spec f.sym f.oldval }

/-- trans.l:575-587 `:return-from` and `:go-tag`: unwinding if there is a frame at or after the offset of the block (comp.l:855, 877); the value is stored at that offset, by `return-from`. -/
def leave (rec : Tm → Site → Ctx → Res) (n : Nat) (key : Key) (S : Site) (l k : Nat) (v : Val) (c : Ctx) : Res :=
  let need := match S.uw with | [] => false | u :: _ => decide (u ≥ k)
  (if need then unwind (runCleaner rec) S.top n (S.base + k) c else .val nil c).bind fun _ c' =>
    match key with
    | .blk _ => put (S.base + k) c' (.goto l v c')
    | .tag _ => .goto l v c'

/-- The C code of a form, run with `rec` for its parts. -/
def form (P : Prog) (rec : Tm → Site → Ctx → Res) (n : Nat) (t : Tm) (S : Site) (c : Ctx) : Res :=
  match t with
  | .const v => .val v c
  -- loadglobal, storeglobal
  | .var x => .val (c.spec x) c
  | .setq x e => (rec e S c).bind fun v c => .val v { c with spec := upd c.spec x v }
  | .print e => (rec e S c).bind fun v c => put S.top c (.val v { c with out := v :: c.out })
  -- comp.l:228-233
  | .progn a b => (rec a S c).bind fun _ c => rec b S c
  | .ite e a b => (rec e S c).bind fun v c => if v ≠ nil then rec a S c else rec b S c
  -- comp.l:724-748 `:let`, 304-325 `:bind`, trans.l:101-108: the value at the offset, a frame of three words after it
  | .lett x e body => (rec e S c).bind fun v c => put S.top c
    ((rec body { S with off := S.off + 4, uw := (S.off + 1) :: S.uw }
      { c with sbindfp := ⟨S.top + 1, x, c.spec x⟩ :: c.sbindfp, spec := upd c.spec x v }).bind unbindx)
  | .call f => callFn P rec f S.top c
  -- comp.l:804-811, trans.l:537-547
  | .catch_ tag body => (rec tag S c).bind fun tag c => put S.top c
    (match rec body { S with off := S.off + 6, uw := S.off :: S.uw } { c with catchfp := ⟨S.top, tag⟩ :: c.catchfp } with
    | .val v c' => exitcatch v c'
    | .jump p v c' => if p = S.top then exitcatch v c' else .jump p v c'
    | r => r)
  -- comp.l:812-815, trans.l:556-560
  | .throw_ tag e => (rec tag S c).bind fun tag c => put S.top c
    ((rec e { S with off := S.off + 1 } c).bind fun v c => throw P rec n S.top tag v c)
  -- comp.l:836-847
  | .block name body =>
    (match rec body { S with blocks := (name, S.blocks.length, S.off) :: S.blocks } c with
    | .val v c' => put S.top c' (.val v c')
    | .goto l v c' => if l = S.blocks.length then .val v c' else .goto l v c'
    | r => r)
  -- comp.l:848-857, 873-879
  | .retfrom key e =>
    (match S.blocks.find? (fun q => q.1.hits key) with
    | none => .nocode
    | some (_, l, k) => (rec e S c).bind fun v c => leave rec n key S l k v c)
  -- comp.l:816-830, trans.l:561-574: the cleanup form runs before its frame is removed
  | .protect e cl => put S.top c
    ((rec e { S with off := S.off + 2, uw := S.off :: S.uw } { c with protfp := ⟨S.top, cl⟩ :: c.protfp }).bind fun v c1 =>
      (runCleaner rec cl (S.top + 2) c1).bind fun _ c2 =>
        (match c2.protfp with
        | [] => .ub
        | _ :: fs => .val v { c2 with protfp := fs }))
  -- comp.l:770-784, inside the block nil
  | .loop e body => (rec e S c).bind fun v c =>
    if v = nil then .val nil c else (rec body S c).bind fun _ c => rec (.loop e body) S c
  | .label _ r => rec r S c
  -- comp.l:858-872: the tags are labels of the C code; the forms after the tag are run
  | .tagbody body cur =>
    (rec (.block (.tags (tagsOf body)) (.progn cur (.const nil))) S c).bind fun v c =>
      match v with
      | .int t => (match after t body with
        | some next => rec (.tagbody body next) S c
        | none => .val nil c)
      | _ => .val nil c
  | .error_ => error P rec S.top c

/-- Compiled code. -/
def cev (P : Prog) : Nat → Tm → Site → Ctx → Res
  | 0, _, _, _ => .timeout
  | n + 1, t, S, c => form P (cev P n) n t S c

/-- A call from the outside: of a function with the body `t` (and a block of its name, here 0), with nothing on the stack. -/
def crun (P : Prog) (n : Nat) (t : Tm) (spec : Nat → Val) : Res :=
  cev P n (.block 0 t) ⟨0, 0, [], []⟩ ⟨spec, [], [], [], []⟩

end Eus.Cex
