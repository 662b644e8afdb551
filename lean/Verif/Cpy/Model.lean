import Mathlib.Logic.Function.Basic
set_option autoImplicit false
/-
`copy-object` (lisp/c/leo.c:536-655).

Objects are natural numbers, the heap is a function from them; new objects get the next number.
-/
namespace Eus.Cpy

/-- A word of an object: a reference, a fixnum, a thing that is never copied (symbol, class, float; leo.c:559), or
the NULL that fills the unused words of a memory cell (memory.c:394). -/
inductive Val where
  | ref (o : Nat)
  | int (i : Nat)
  | atom (a : Nat)
  | null
deriving DecidableEq

/-- leo.c:566-577: what the code distinguishes: a record, a vector of pointers (`ELM_POINTER`), any other vector. -/
inductive Kind where
  | record
  | vector
  | raw
deriving DecidableEq

/-- An object: class, kind, number of slots (of elements, of words for other vectors), the words and the mark `pmark`
of the header (leo.c:541).  Word 0 of a vector is its size, element `i` is word `i+1` (eus.h:365, `struct vector`). -/
structure Cell where
  cls : Nat
  kind : Kind
  size : Nat
  iv : Nat → Val
  mark : Bool

/-- The heap, the next free number, and the pairs pushed on the stack (`cpvec`, with `cpx` twice their number,
leo.c:545-546). -/
structure St where
  cell : Nat → Cell
  next : Nat
  stack : List (Nat × Val)

/-- Result of `copyobj`: a value, "cannot copy" by the non-local exit of line 582, or undefined behaviour (a null
pointer is read). -/
inductive Out (α : Type) where
  | ok (v : α)
  | overflow
  | ub
deriving DecidableEq

/-- makes.c:407-436 `makeobject`, `makevector`: a new object with the same class and size, filled with NIL (0 for
other vectors); unused words are NULL (memory.c:390-394). -/
def fresh (c : Cell) : Cell :=
  { c with
    iv := match c.kind with
      | .record => fun i => if i < c.size then .atom 0 else .null
      | .vector => fun i => if i = 0 then c.iv 0 else if i ≤ c.size then .atom 0 else .null
      | .raw => fun i => if i = 0 then c.iv 0 else if i ≤ c.size then .int 0 else .null
    mark := false }

/-- leo.c:594-605: the words that are copied, in the order of the code; word 1 always first. -/
def fields (c : Cell) : List Nat :=
  match c.kind with
  | .record => 1 :: ((if c.size > 0 then [0] else []) ++ (List.range (c.size - 2)).map (· + 2))
  | .vector => 1 :: (List.range (c.size - 1)).map (· + 2)
  | .raw => 1 :: (List.range (c.size - 1)).map (· + 2)

/-- Store one word (leo.c:595). -/
def St.setWord (s : St) (o i : Nat) (v : Val) : St :=
  let c := s.cell o
  { s with cell := Function.update s.cell o ⟨c.cls, c.kind, c.size, Function.update c.iv i v, c.mark⟩ }

/-- leo.c:543: set the mark. -/
def St.setMark (s : St) (o : Nat) (b : Bool) : St :=
  let c := s.cell o
  { s with cell := Function.update s.cell o ⟨c.cls, c.kind, c.size, c.iv, b⟩ }

/-- leo.c:594-605: copy the listed words of `org` into `clone`; word 1 comes from the saved `x`.  `f` is the recursive
call. -/
def copyFields (f : St → Val → Out Val × St) (org clone : Nat) (x : Val) : List Nat → St → Out Unit × St
  | [], s => (.ok (), s)
  | i :: is, s =>
    match f s (if i = 1 then x else (s.cell org).iv i) with
    | (.ok w, s) => copyFields f org clone x is (s.setWord clone i w)
    | (.overflow, s) => (.overflow, s)
    | (.ub, s) => (.ub, s)

/-- leo.c:549-609 `copyobj`.  `lim` is the room on the stack (in pairs), the second argument bounds the depth of the
recursion. -/
def copyobj (lim : Nat) : Nat → St → Val → Out Val × St
  | 0, s, _ => (.ub, s)
  | fuel + 1, s, v =>
    match v with
    | .int i => (.ok (.int i), s)
    | .atom a => (.ok (.atom a), s)
    | .null => (.ub, s)
    | .ref org =>
      let x := (s.cell org).iv 1
      if (s.cell org).mark then
        match x with
        | .int k => match s.stack[k]? with
          | some (c, _) => (.ok (.ref c), s)
          | none => (.ub, s)
        | _ => (.ub, s)
      else
        let clone := s.next
        let s := s.setMark org true
        let s := { s with cell := Function.update s.cell clone (fresh (s.cell org)), next := s.next + 1 }
        if s.stack.length ≥ lim then (.overflow, s.setMark org false)
        else
          let k := s.stack.length
          let s := s.setWord org 1 (.int k)
          let s := { s with stack := s.stack ++ [(clone, x)] }
          let r := match (s.cell org).kind with
            | .raw => copyFields (fun s v => (.ok v, s)) org clone x (fields (s.cell org)) s
            | _ => copyFields (copyobj lim fuel) org clone x (fields (s.cell org)) s
          match r with
          | (.ok _, s) => (.ok (.ref clone), s)
          | (.overflow, s) => (.overflow, s)
          | (.ub, s) => (.ub, s)

/-- leo.c:623-629: the words that `copyunmark` follows: all slots or elements in order, none of other vectors. -/
def pointers (c : Cell) : List Nat :=
  match c.kind with
  | .record => List.range c.size
  | .vector => (List.range c.size).map (· + 1)
  | .raw => []

/-- leo.c:625, 629: the loops of `copyunmark`, reading each word when it is reached. -/
def unmarkFields (f : St → Val → Option St) (o : Nat) : List Nat → St → Option St
  | [], s => some s
  | i :: is, s => (f s ((s.cell o).iv i)).bind (unmarkFields f o is)

/-- leo.c:611-631 `copyunmark`; `none`: undefined behaviour (null pointer, or no saved word). -/
def copyunmark : Nat → St → Val → Option St
  | 0, _, _ => none
  | fuel + 1, s, v =>
    match v with
    | .int _ => some s
    | .atom _ => some s
    | .null => none
    | .ref o =>
      if (s.cell o).mark then
        match (s.cell o).iv 1 with
        | .int k => match s.stack[k]? with
          | some (_, x) =>
            let s := (s.setWord o 1 x).setMark o false
            unmarkFields (copyunmark fuel) o (pointers (s.cell o)) s
          | none => none
        | _ => none
      else some s

/-- leo.c:633-653 `COPYOBJ`: the result and the heap. -/
def COPYOBJ (lim fuel : Nat) (s : St) (a : Val) : Out Val × St :=
  let (b, s) := copyobj lim fuel { s with stack := [] } a
  match b with
  | .ub => (.ub, s)
  | b => match copyunmark fuel s a with
    | some s => (b, { s with stack := [] })
    | none => (.ub, s)

end Eus.Cpy
