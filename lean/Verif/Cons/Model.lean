set_option autoImplicit false
/-
A heap of cons cells, and the functions of lisp/c/lists.c, lisp/c/sequence.c, lisp/l/common.l and
lisp/l/hashtab.l that relink CDRs: append, nconc, butlast, nbutlast, delete on lists, list-insert,
list-delete, last, and the class queue.

Simplifications: cells are never reclaimed (garbage collection is the subject of other modules);
`none` stands for a Lisp error, for undefined behaviour, or for a loop that does not end within the
given fuel (a circular list); counts and positions are natural numbers; `breakck` is ignored.
-/
namespace Eus.Cons

/-- A value (eus.h `pointer`): NIL, a reference to a cons cell, or anything else. -/
inductive V where
  | nil
  | cell (a : Nat)
  | atom (n : Nat)
deriving DecidableEq, Repr

/-- The heap (eus.h:195-197 `struct cons`): the two fields of every cell, and the next unused address. -/
structure H where
  car : Nat → V
  cdr : Nat → V
  next : Nat

/-- `pointer_update(ccdr(a),v)` (eus.h), as in lists.c:226. -/
def H.setCdr (h : H) (a : Nat) (v : V) : H := { h with cdr := fun x => if x = a then v else h.cdr x }

/-- makes.c:97 `cons`: a new cell. -/
def H.cons (h : H) (x d : V) : H × V :=
  ({ car := fun a => if a = h.next then x else h.car a,
     cdr := fun a => if a = h.next then d else h.cdr a,
     next := h.next + 1 }, .cell h.next)

/-- lists.c:27-35 `CDR`: of NIL it is NIL; of another atom an error. -/
def H.CDR (h : H) : V → Option V
  | .nil => some .nil
  | .cell a => some (h.cdr a)
  | .atom _ => none

/-- lists.c:17-25 `CAR`. -/
def H.CAR (h : H) : V → Option V
  | .nil => some .nil
  | .cell a => some (h.car a)
  | .atom _ => none

/-! ### append -/

/-- lists.c:209 push the elements of a list (returned with the last one first); the tail is dropped. -/
def pushAll (h : H) : Nat → V → List V → Option (List V)
  | _, .nil, stk => some stk
  | _, .atom _, stk => some stk
  | 0, .cell _, _ => none
  | n + 1, .cell a, stk => pushAll h n (h.cdr a) (h.car a :: stk)

/-- lists.c:210 `while (i-->0) r=cons(ctx,vpop(),r)`. -/
def consAll (h : H) : List V → V → H × V
  | [], r => (h, r)
  | x :: stk, r => let (h, r) := h.cons x r; consAll h stk r

/-- lists.c:205-210, the loop of `APPEND`: arguments before the last, the last of them first. -/
def appendLoop (fuel : Nat) : H → List V → V → Option (H × V)
  | h, [], r => some (h, r)
  | h, a :: as, r =>
    match a with
    | .atom _ => none
    | a => (pushAll h fuel a []).bind fun stk => let (h, r) := consAll h stk r; appendLoop fuel h as r

/-- lists.c:197-211 `APPEND`. -/
def append (fuel : Nat) (h : H) (args : List V) : Option (H × V) :=
  match args.reverse with
  | [] => some (h, .nil)
  | r :: as => appendLoop fuel h as r

/-! ### nconc -/

/-- lists.c:225 `while (islist(ccdr(c))) c=ccdr(c)`, from the cell `c`. -/
def lastCell (h : H) : Nat → Nat → Option Nat
  | 0, _ => none
  | n + 1, c => match h.cdr c with
    | .cell d => lastCell h n d
    | _ => some c

/-- lists.c:222-228: arguments still to process, the last of them first. -/
def nconcLoop (fuel : Nat) : H → List V → V → Option (H × V)
  | h, [], a => some (h, a)
  | h, .cell c :: args, a => (lastCell h fuel c).bind fun l => nconcLoop fuel (h.setCdr l a) args (.cell c)
  | h, _ :: args, a => nconcLoop fuel h args a

/-- lists.c:218-221: find the last argument that is a list. -/
def nconcStart (fuel : Nat) : H → List V → Option (H × V)
  | h, [] => some (h, .nil)
  | h, .cell c :: args => nconcLoop fuel h args (.cell c)
  | h, _ :: args => nconcStart fuel h args

/-- lists.c:213-229 `NCONC`. -/
def nconc (fuel : Nat) (h : H) (args : List V) : Option (H × V) := nconcStart fuel h args.reverse

/-! ### butlast, nbutlast -/

/-- lists.c:373-388 `BUTLAST`: `stacknlist` (makes.c:129) conses what is left of the stack. -/
def butlast (fuel : Nat) (h : H) (a : V) (n : Nat) : Option (H × V) :=
  match a with
  | .atom _ => none
  | a => (pushAll h fuel a []).map fun stk => consAll h (stk.drop (min stk.length n)) .nil

/-- lists.c:403: push the cells themselves. -/
def pushCells (h : H) : Nat → V → List Nat → Option (List Nat)
  | 0, .cell _, _ => none
  | n + 1, .cell a, stk => pushCells h n (h.cdr a) (a :: stk)
  | _, _, stk => some stk

/-- lists.c:390-407 `NBUTLAST`: line 405 reads `vsp[-n-1]`, which is below the pushed cells if `n`
is not less than their number (`none`). -/
def nbutlast (fuel : Nat) (h : H) (a : V) (n : Nat) : Option (H × V) :=
  match a with
  | .nil => some (h, .nil)
  | .atom _ => none
  | .cell c => (pushCells h fuel (.cell c) []).bind fun stk =>
    match stk[min stk.length n]? with
    | none => none
    | some b => some (h.setCdr b .nil, .cell c)

/-! ### delete -/

/-- sequence.c:746-769, the loop of `DELETE` over a list. -/
def delLoop (p : V → Bool) : Nat → Nat → H → V → V → Nat → Bool → Option (H × V)
  | 0, _, h, result, _, _, _ => some (h, result)
  | _ + 1, 0, h, result, _, _, _ => some (h, result)
  | n + 1, c + 1, h, result, seq, last, first =>
    match seq, result with
    | .cell a, .cell _ =>
      if p (h.car a) then
        if first then delLoop p n c h (h.cdr a) (h.cdr a) last first
        else let h := h.setCdr last (h.cdr a)
          -- the next cell is read after the store (line 762)
          delLoop p n c h result (h.cdr a) last false
      else delLoop p n (c + 1) h result (h.cdr a) a false
    | _, _ => none

/-- sequence.c:744 skip `start` cells. -/
def skip (h : H) : Nat → V → Option V
  | 0, v => some v
  | n + 1, .cell a => skip h n (h.cdr a)
  | _ + 1, _ => none

/-- sequence.c:723-771 `DELETE` on a list. -/
def delete (p : V → Bool) (start stop count : Nat) (h : H) (seq : V) : Option (H × V) :=
  match seq with
  | .nil => some (h, .nil)
  | .atom _ => none
  | .cell c =>
    match skip h start (.cell c) with
    | some (.cell a) => delLoop p (stop - start) count h (.cell c) (.cell a) a (start = 0)
    -- `lastseq` is not used before an error in this case
    | some v => delLoop p (stop - start) count h (.cell c) v 0 (start = 0)
    | none => none

/-! ### Lisp functions -/

/-- lists.c:119-132 `NTHCDR`. -/
def nthcdr (h : H) : Nat → V → V
  | 0, v => v
  | n + 1, .cell a => nthcdr h n (h.cdr a)
  | _ + 1, v => v

/-- sequence.c:1018-1036 `LENGTH` of a list: the number of its cells. -/
def len (h : H) : Nat → V → Option Nat
  | 0, .cell _ => none
  | n + 1, .cell a => (len h n (h.cdr a)).map (· + 1)
  | _, _ => some 0

/-- common.l:367-375 `list-insert`. -/
def listInsert (fuel : Nat) (h : H) (item : V) (pos : Nat) (l : V) : Option (H × V) :=
  match l with
  | .nil => some (h.cons item .nil)
  | l => (len h fuel l).bind fun n =>
    if pos ≥ n then
      let (h, i) := h.cons item .nil
      nconc fuel h [l, i]
    else if pos = 0 then some (h.cons item l)
    else
      let (h, tail) := h.cons item (nthcdr h pos l)
      match nthcdr h (pos - 1) l with
      | .cell b => some (h.setCdr b tail, l)
      | _ => none

/-- common.l:377-381 `list-delete`. -/
def listDelete (h : H) (l : V) (n : Nat) : Option (H × V) :=
  if n = 0 then (h.CDR l).map fun r => (h, r)
  else match nthcdr h (n - 1) l with
    | .cell b => some (h.setCdr b (nthcdr h (n + 1) l), l)
    | _ => none

/-- common.l:431-433 `last`. -/
def last (fuel : Nat) (h : H) : V → Option V
  | .nil => some .nil
  | .atom _ => none
  | .cell c => (lastCell h fuel c).map V.cell

/-! ### queue -/

/-- hashtab.l:224 the two slots of a queue object (a subclass of cons), with the heap. -/
structure Q where
  h : H
  car : V
  cdr : V

/-- hashtab.l:227 `:init`. -/
def Q.init (h : H) : Q := ⟨h, .nil, .nil⟩

/-- hashtab.l:240-247 `:enqueue`. -/
def Q.enqueue (q : Q) (x : V) : Option Q :=
  match q.cdr with
  | .nil => let (h, c) := q.h.cons x .nil; some ⟨h, c, c⟩
  | .cell l => let (h, c) := q.h.cons x .nil
    let h := h.setCdr l c
    some ⟨h, q.car, h.cdr l⟩
  | .atom _ => none

/-- hashtab.l:232-239 `:dequeue` (without error-p): the new state and the result. -/
def Q.dequeue (q : Q) : Option (Q × V) :=
  match q.car with
  | .nil => some (q, .nil)
  | .atom _ => none
  | .cell a =>
    if q.car = q.cdr then some (⟨q.h, .nil, .nil⟩, q.h.car a)
    else some (⟨q.h, q.h.cdr a, q.cdr⟩, q.h.car a)

/-- hashtab.l:228 `:length`. -/
def Q.length (fuel : Nat) (q : Q) : Option Nat := len q.h fuel q.car

/-- hashtab.l:230-231, the `dotimes` of `:trim`. -/
def Q.dequeueN : Nat → Q → Option Q
  | 0, q => some q
  | n + 1, q => q.dequeue.bind fun (q, _) => Q.dequeueN n q

/-- hashtab.l:230-231 `:trim`. -/
def Q.trim (fuel : Nat) (q : Q) (s : Nat) : Option Q :=
  (q.length fuel).bind fun n => Q.dequeueN (n - s) q

/-- hashtab.l:250-253 `:delete`; `p` is the test against the item. -/
def Q.delete (fuel : Nat) (q : Q) (p : V → Bool) (count : Nat) : Option Q :=
  (len q.h fuel q.car).bind fun n =>
    (Cons.delete p 0 n count q.h q.car).bind fun (h, c) =>
      (last fuel h c).map fun l => ⟨h, c, l⟩

/-- hashtab.l:254 `:first`. -/
def Q.first (q : Q) : Option V := q.h.CAR q.car

/-- hashtab.l:255 `:last`. -/
def Q.last (q : Q) : Option V := q.h.CAR q.cdr

end Eus.Cons
