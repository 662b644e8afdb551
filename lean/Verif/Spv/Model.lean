set_option autoImplicit false
/-
Special variables: lisp/c/eval.c:34-93 (`getval`, `setval`), 131-238 (`bindspecial`, `unbindspecial`, `vbind`, `declare`), lisp/c/specials.c:
850-888 (`proclaim`), 989-1017 (`symbol-value`), 1042-1078 (`makunbound`, `set`), lisp/c/predicates.c:95-104 (`boundp`), lisp/c/makes.c:660-682
(`special_index`), 887-894 (the table of a new thread), lisp/c/mthread.c:66-70 (the table of a thread that is given something to do),
lisp/l/packsym.l:26-52 and lisp/l/common.l:122-138 (`defvar`, `deflocal`, `defparameter`).

Values are numbers, 0 is NIL; `none` is the mark for an unbound variable.  Bindings and assignments are one step each; in the code a binding of a
global variable is two accesses to the symbol, which makes a difference only when two threads bind it at the same time.
-/
namespace Eus.Spv

/-- eus.h:97-100: the `vtype` of a symbol. -/
inductive VT where
  | const
  | var
  | glob
  | spec (i : Nat)
deriving DecidableEq, Repr

/-- A thread: its table of special values, its special binding frames (symbol and old value, the newest first), its lexical frames. -/
structure Thr where
  tab : Nat → Option Nat
  frames : List (Nat × Option Nat)
  lex : List (Nat × Option Nat)

structure Sys where
  vt : Nat → VT
  cell : Nat → Option Nat
  thr : Nat → Thr
  next : Nat

def upd {α : Type} (f : Nat → α) (n : Nat) (a : α) : Nat → α := fun m => if m = n then a else f m

/-- eus.h:150 -/
def maxSpecials : Nat := 512

inductive R where
  | val (v : Nat)
  | done
  | yes
  | no
  | unbound
  | constant
  | limit
  | wild
deriving DecidableEq, Repr

def Sys.setTab (s : Sys) (t i : Nat) (v : Option Nat) : Sys :=
  { s with thr := upd s.thr t { s.thr t with tab := upd (s.thr t).tab i v } }

def Sys.setCell (s : Sys) (x : Nat) (v : Option Nat) : Sys := { s with cell := upd s.cell x v }

/-- The value in a lexical frame, if there is a frame for this variable. -/
def lexGet (x : Nat) : List (Nat × Option Nat) → Option (Option Nat)
  | [] => none
  | (y, v) :: l => if x = y then some v else lexGet x l

def lexSet (x v : Nat) : List (Nat × Option Nat) → List (Nat × Option Nat)
  | [] => []
  | (y, w) :: l => if x = y then (y, some v) :: l else (y, w) :: lexSet x v l

def R.of : Option Nat → R
  | some v => .val v
  | none => .unbound

/-- eval.c:34-66 -/
def getval (t x : Nat) (s : Sys) : R :=
  match s.vt x with
  | .spec i =>
    match (s.thr t).tab i with
    | some v => .val v
    | none => R.of (s.cell x)
  | .const => R.of (s.cell x)
  | _ =>
    match lexGet x (s.thr t).lex with
    | some (some v) => .val v
    | _ => R.of (s.cell x)

/-- eval.c:68-93, specials.c:1054-1064: also `set`, but for lexical variables. -/
def setval (t x v : Nat) (s : Sys) : R × Sys :=
  match s.vt x with
  | .spec i => (.val v, s.setTab t i (some v))
  | k =>
    match lexGet x (s.thr t).lex with
    | some (some _) => (.val v, { s with thr := upd s.thr t { s.thr t with lex := lexSet x v (s.thr t).lex } })
    | _ => if k = .const then (.constant, s) else (.val v, s.setCell x (some v))

/-- eus.h:97-100, 735: the index of a variable's value in the table; that of an ordinary variable is 1. -/
def VT.index : VT → Nat
  | .const => 0
  | .var => 1
  | .glob => 2
  | .spec i => i

/-- eval.c:131-148 -/
def bindspecial (t x : Nat) (v : Option Nat) (s : Sys) : Sys :=
  let push (o : Option Nat) (s : Sys) : Sys := { s with thr := upd s.thr t { s.thr t with frames := (x, o) :: (s.thr t).frames } }
  if s.vt x = .glob then push (s.cell x) (s.setCell x v)
  else push ((s.thr t).tab (s.vt x).index) (s.setTab t (s.vt x).index v)

/-- eval.c:171-176: one round: where the old value goes depends on what the variable is now. -/
def unbind1 (t : Nat) (s : Sys) : Sys :=
  match (s.thr t).frames with
  | [] => s
  | (x, o) :: fs =>
    let s : Sys := if s.vt x = .glob then s.setCell x o else s.setTab t (s.vt x).index o
    { s with thr := upd s.thr t { s.thr t with frames := fs } }

/-- eval.c:165-178: the frames from the limit on. -/
def unbind (t : Nat) : Nat → Sys → Sys
  | 0, s => s
  | n + 1, s => unbind t n (unbind1 t s)

/-- eval.c:193-218 `vbind` -/
def vbind (t x : Nat) (v : Option Nat) (s : Sys) : R × Sys :=
  if s.vt x = .const then (.constant, s)
  else
    match s.vt x, lexGet x (s.thr t).lex with
    | .var, some none => (.done, bindspecial t x v s)
    | .var, _ => (.done, { s with thr := upd s.thr t { s.thr t with lex := (x, v) :: (s.thr t).lex } })
    | _, _ => (.done, bindspecial t x v s)

/-- eval.c:220-238 `(declare (special x))` at the beginning of a `let` -/
def declare (t x : Nat) (s : Sys) : R × Sys :=
  match s.vt x with
  | .spec _ => (.done, s)
  | _ => vbind t x none s

/-- makes.c:664-671 -/
def specialIndex (s : Sys) : Option Nat × Sys :=
  let s' : Sys := { s with next := s.next + 1 }
  if s.next < maxSpecials then (some s.next, s') else (none, s')

/-- common.l:130-134, packsym.l:41-48 `deflocal` -/
def deflocal (t x v : Nat) (s : Sys) : R × Sys :=
  if s.vt x = .const then (.constant, s)
  else
    match specialIndex s with
    | (none, s) => (.limit, s)
    | (some i, s) =>
      let s : Sys := { s with vt := upd s.vt x (.spec i) }
      (.val v, s.setTab t i (some v))

/-- specials.c:870-884 `(proclaim '(special x))` -/
def proclaim (t x : Nat) (s : Sys) : R × Sys :=
  match s.vt x with
  | .const => (.constant, s)
  | .spec _ => (.done, s)
  | _ =>
    match specialIndex s with
    | (none, s) => (.limit, s)
    | (some i, s) =>
      let s : Sys := { s with vt := upd s.vt x (.spec i) }
      (.done, s.setTab t i (s.cell x))

/-- packsym.l:49-53 `:global`, common.l:136-138 `defparameter` -/
def defparameter (x v : Nat) (s : Sys) : R × Sys :=
  let s : Sys := { s with vt := upd s.vt x .glob }
  (.val v, s.setCell x (some v))

/-- common.l:122-128 `defvar` -/
def defvar (x v : Nat) (s : Sys) : R × Sys :=
  if s.vt x = .var then
    let s : Sys := { s with vt := upd s.vt x .glob }
    match s.cell x with
    | none => (.done, s.setCell x (some v))
    | some _ => (.done, s)
  else (.done, s)

/-- predicates.c:95-104 -/
def boundp (t x : Nat) (s : Sys) : R :=
  match s.vt x with
  | .spec i => if (s.thr t).tab i = none then .no else .yes
  | _ => if s.cell x = none then .no else .yes

/-- What a thread does.  `unwind n` leaves all bindings but the first n, as the end of a `let` and a `throw` do; `newThread` gives thread `t` a
table; `dispatch r` is the beginning of a function that thread `r` has given to the thread `t` of the pool. -/
inductive Op where
  | defvar (x v : Nat)
  | defparameter (x v : Nat)
  | deflocal (x v : Nat)
  | proclaim (x : Nat)
  | get (x : Nat)
  | set (x v : Nat)
  | symbolValue (x : Nat)
  | makunbound (x : Nat)
  | boundp (x : Nat)
  | declare (x : Nat)
  | bind (x v : Nat)
  | unwind (n : Nat)
  | newThread
  | dispatch (r : Nat)
deriving DecidableEq, Repr

def step (t : Nat) (o : Op) (s : Sys) : R × Sys :=
  match o with
  | .defvar x v => defvar x v s
  | .defparameter x v => defparameter x v s
  | .deflocal x v => deflocal t x v s
  | .proclaim x => proclaim t x s
  | .get x => (getval t x s, s)
  | .set x v => setval t x v s
  -- specials.c:996
  | .symbolValue x => (R.of (s.cell x), s)
  -- specials.c:1051
  | .makunbound x => (.yes, s.setCell x none)
  | .boundp x => (boundp t x s, s)
  | .declare x => declare t x s
  | .bind x v => vbind t x (some v) s
  | .unwind n => (.done, unbind t ((s.thr t).frames.length - n) s)
  -- makes.c:889-894
  | .newThread => (.done, { s with thr := upd s.thr t { tab := (s.thr 0).tab, frames := [], lex := [] } })
  -- mthread.c:67-70: beyond the table when more indices than the table has places were given out
  | .dispatch r =>
    if s.next ≤ maxSpecials then
      (.done, { s with thr := upd s.thr t { s.thr t with tab := fun i => if i < s.next then (s.thr r).tab i else (s.thr t).tab i } })
    else (.wild, s)

def run : List (Nat × Op) → Sys → List R × Sys
  | [], s => ([], s)
  | (t, o) :: es, s =>
    let (r, s) := step t o s
    let (rs, s) := run es s
    (r :: rs, s)

/-- eus.c:1230-1237, makes.c:661: at first, with ordinary variables only, all unbound.  (The system's own special variables take some of the
places of the table before the first program runs.) -/
def init : Sys :=
  { vt := fun _ => .var, cell := fun _ => none, thr := fun _ => { tab := fun _ => some 0, frames := [], lex := [] }, next := 3 }

end Eus.Spv
