set_option autoImplicit false
/-
The interactive top level of lisp/l/toplevel.l: nested read-eval-print levels entered by errors
(`euserror`) and by interrupts (`sigint-handler`), left by end-of-file, by `reset` and by
`(throw :eusexit nil)`.

Simplifications: what a typed form does is an abstract computation `Cmp`; the value cell of every
special variable holds a number; there is no unwind-protect (cleanup forms are the subject of other
modules) and no user catch; the prompt is printed because the input is a terminal; a thread has one
top level; printing of messages, the alarm, `*history*` and `*toplevel-hook*` are left out.
-/
namespace Eus.Top

/-- What a form typed at a prompt does when it is evaluated. -/
inductive Cmp where
  | ret (v : Nat)                 -- a value
  | get (x : Nat)                 -- the value of a special variable
  | set (x v : Nat)               -- setq of a special variable
  | seq (a b : Cmp)               -- progn
  | bind (x v : Nat) (c : Cmp)    -- let of a special variable
  | llet (x v : Nat) (c : Cmp)    -- let of a lexical variable
  | err                           -- something that signals an error
  | intr                          -- the user types ^C at this point
  | reset (m : Nat)               -- (reset m)
  | exit                          -- (throw :eusexit nil)
deriving DecidableEq, Repr

/-- What the user types. `form id c`: the form number `id`; `sym id x`: a comma and a symbol
(toplevel.l:88-92); `blank`: an empty line; `eof`: ^D. After the last one the stream stays at eof. -/
inductive Line where
  | form (id : Nat) (c : Cmp)
  | sym (id x : Nat)
  | blank
  | eof
deriving DecidableEq, Repr

/-- `*reptype*` (toplevel.l:295 "E", :107 "B", :351 ""). -/
inductive Kind where
  | E | B | T
deriving DecidableEq, Repr

/-- What appears on the terminal: prompts (toplevel.l:152-160), and values (with the number of
the form, which is not printed; `none` for an empty line). -/
inductive Ev where
  | prompt (k : Kind) (n : Nat)
  | value (id : Option Nat) (v : Nat)
deriving DecidableEq, Repr

/-- The state: input left, value cells, what was printed, the variables `-`, `+` to `+++`, `*` to
`***` (toplevel.l:32-38), and the bindings stored in the top selector (toplevel.l:260-261, stream.l:649). -/
structure St where
  inp : List Line
  sp : Nat → Nat
  out : List Ev
  minus : Nat
  plus : Nat × Nat × Nat
  star : Nat × Nat × Nat
  cb : List (Nat × Nat)

/-- How a computation ends: with a value, by a throw to the catch tag of a level, or by a throw to
`:eusexit`. A read-eval-print loop that meets end-of-file returns `done 0`. -/
inductive Out where
  | done (v : Nat)
  | thr (m : Nat)
  | exit
deriving DecidableEq, Repr

def upd (f : Nat → Nat) (x v : Nat) : Nat → Nat := fun y => if y = x then v else f y

/-- eusdebug.l:208-222 `eval-dynamic`: the first binding in the list, otherwise the value cell. -/
def evalDynamic (x : Nat) (sp : Nat → Nat) : List (Nat × Nat) → Nat
  | [] => sp x
  | (y, v) :: env => if x = y then v else evalDynamic x sp env

/-- toplevel.l:294-297, the end of `euserror`: a loop at the next level inside a catch of that
level; then a throw to the level that is current outside. -/
def euserror (n : Nat) (r : Out × St) : Out × St :=
  match r with
  | (.done _, s) => (.thr n, s)
  | (.thr m, s) => if m = n + 1 then (.thr n, s) else (.thr m, s)
  | (.exit, s) => (.exit, s)

/-- toplevel.l:101-108 `sigint-handler`: a loop at the next level inside a catch of that level; then
the interrupted computation goes on (eus.c:1096). -/
def sigint (n : Nat) (r : Out × St) : Out × St :=
  match r with
  | (.done _, s) => (.done 0, s)
  | (.thr m, s) => if m = n + 1 then (.done 0, s) else (.thr m, s)
  | (.exit, s) => (.exit, s)

/-- `eval` of a form at level `n` (`*replevel*`), with the variable frames `env` on the stack;
`loop` is `reploop`. Every exit from `bind` restores the value cell (eus.c:287 `unbindspecial`).
`reset` (toplevel.l:355) with a tag that nobody catches is the error E_NOCATCHER
(specials.c:560); the tags of levels 0 to `n` are caught. -/
def ev (loop : Kind → Nat → List (Nat × Nat) → St → Out × St) (n : Nat) :
    List (Nat × Nat) → Cmp → St → Out × St
  | _, .ret v, s => (.done v, s)
  | _, .get x, s => (.done (s.sp x), s)
  | _, .set x v, s => (.done v, { s with sp := upd s.sp x v })
  | env, .seq a b, s =>
    match ev loop n env a s with
    | (.done _, s) => ev loop n env b s
    | r => r
  | env, .bind x v c, s =>
    let r := ev loop n env c { s with sp := upd s.sp x v }
    (r.1, { r.2 with sp := upd r.2.sp x (s.sp x) })
  | env, .llet x v c, s => ev loop n ((x, v) :: env) c s
  | env, .err, s => euserror n (loop .E (n + 1) env s)
  | env, .intr, s => sigint n (loop .B (n + 1) env s)
  | env, .reset m, s => if m ≤ n then (.thr m, s) else euserror n (loop .E (n + 1) env s)
  | _, .exit, s => (.exit, s)

/-- toplevel.l:204-205, the end of `rep1`: print the value; shift the variables. -/
def finish (s : St) (id : Option Nat) (v : Nat) : St :=
  { s with out := s.out ++ [.value id v],
           plus := (s.minus, s.plus.1, s.plus.2.1),
           star := (v, s.star.1, s.star.2.1) }

/-- toplevel.l:165-205 `rep1` and the loops around it, toplevel.l:236-241 (`sel = false`) and
:243-272 (`sel = true`), from the second iteration of the loop on. The first argument bounds the
number of lines read; with one more than the lines left it has no effect. With `sel` the bindings
used for a symbol are those last stored in the selector; otherwise those of this level. -/
def iter (sel : Bool) : Nat → Kind → Nat → List (Nat × Nat) → St → Out × St
  | 0, _, _, _, s => (.done 0, s)
  | f + 1, k, n, env, s =>
    let s : St := { s with out := s.out ++ [.prompt k n] }
    match s.inp with
    | [] => (.done 0, s)
    | .eof :: r => (.done 0, { s with inp := r })
    | .blank :: r => iter sel f k n env (finish { s with inp := r } none 0)
    | .sym id x :: r =>
      let v := if n > 0 then evalDynamic x s.sp (if sel then s.cb else env) else s.sp x
      iter sel f k n env (finish { s with inp := r, minus := id } (some id) v)
    | .form id c :: r =>
      match ev (fun k n env s => iter sel f k n env { s with cb := env }) n env c
          { s with inp := r, minus := id } with
      | (.done v, s) => iter sel f k n env (finish s (some id) v)
      | o => o

/-- toplevel.l:274-279 `reploop`: with the selector the bindings of this level are stored in it
(toplevel.l:260-261). -/
def reploop (sel : Bool) (f : Nat) (k : Kind) (n : Nat) (env : List (Nat × Nat)) (s : St) : Out × St :=
  iter sel f k n env { s with cb := env }

/-- toplevel.l:348-353, the end of `eustop`: level 0 again after a throw to 0. -/
def eustop (sel : Bool) : Nat → St → St
  | 0, s => s
  | f + 1, s =>
    match reploop sel (f + 1) .T 0 [] s with
    | (.thr _, s) => eustop sel f s
    | (_, s) => s

/-- A session from given values of the special variables. -/
def session (sel : Bool) (inp : List Line) (sp : Nat → Nat) : St :=
  eustop sel (inp.length + 1)
    { inp := inp, sp := sp, out := [], minus := 0, plus := (0, 0, 0), star := (0, 0, 0), cb := [] }

end Eus.Top
