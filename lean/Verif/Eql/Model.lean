set_option autoImplicit false
/-
`equal`, `superequal` (lisp/c/predicates.c:124-210) and `sxhash` (lisp/c/specials.c:938-988), 64-bit
configuration.

The heap maps addresses to objects.  Foreign strings (elements outside the object) are left out.
-/
namespace Eus.Eql

abbrev Word := BitVec 64

/-- A pointer-sized value: an immediate integer, an immediate float (its bits, the two low ones
cleared) or the address of an object (eus.h:741-760). -/
inductive Val where
  | int (z : Int)
  | flt (bits : Word)
  | ptr (a : Nat)
deriving DecidableEq, Repr

/-- `elmtype` (eus.h:113-120), without ELM_FOREIGN. -/
inductive Elm where
  | fixed | bit | char | byte | int | float | pointer
deriving DecidableEq, Repr

/-- An object: class index, element type, `vecsize` (vectors), the pointers it holds (the slots of an
object, the elements of a vector of pointers) and its raw words (other vectors). -/
structure Obj where
  cix : Nat
  elm : Elm
  size : Nat
  slots : List Val
  words : List Word
deriving DecidableEq, Repr

abbrev Heap := Nat → Obj

/-- The class table: the ranges of class indices of conses (eus.h:835), symbols (eus.h:838) and strings
(eus.h:840), the number of slots of each class (eus.h:887), and the print name of a symbol. -/
structure Env where
  consSub : Nat
  symLo : Nat
  symHi : Nat
  strLo : Nat
  strHi : Nat
  objsize : Nat → Nat
  pname : Nat → Nat

def Env.islist (E : Env) (c : Nat) : Bool := c ≤ E.consSub
def Env.issym (E : Env) (c : Nat) : Bool := E.symLo ≤ c && c ≤ E.symHi
def Env.isstr (E : Env) (c : Nat) : Bool := E.strLo ≤ c && c ≤ E.strHi

/-- predicates.c:183-186: how many words `equal` compares. -/
def nwords (e : Elm) (n : Nat) : Nat :=
  match e with
  | .bit => (n + 64 - 1) / 64
  | .char | .byte => (n + 8 - 1) / 8
  | _ => n

/-- predicates.c:188 `for (i=0; i<n; i++) if (cx[i]!=cy[i]) return(NIL);` -/
def wordsEq : Nat → List Word → List Word → Bool
  | 0, _, _ => true
  | n + 1, a :: as, b :: bs => if a ≠ b then false else wordsEq n as bs
  | _ + 1, _, _ => false

/-- predicates.c:176-178: the loop over `n` pointers. -/
def slotLoop (f : Val → Val → Option Bool) : Nat → List Val → List Val → Option Bool
  | 0, _, _ => some true
  | n + 1, a :: as, b :: bs =>
    match f a b with
    | some true => slotLoop f n as bs
    | r => r
  | _ + 1, _, _ => some false

/-- predicates.c:162-189 `equal`; `none`: deeper than the given depth (it does not return on circular
objects).  The first word of a vector of pointers is its size. -/
def equal (E : Env) (H : Heap) : Nat → Val → Val → Option Bool
  | 0, _, _ => none
  | n + 1, x, y =>
    if x = y then some true
    else match x, y with
      | .ptr a, .ptr b =>
        let X := H a
        let Y := H b
        if X.cix ≠ Y.cix then some false
        else if E.issym X.cix then some false
        else if X.elm ≠ Y.elm then some false
        else match X.elm with
          | .fixed => slotLoop (equal E H n) (E.objsize X.cix) X.slots Y.slots
          | .pointer => if X.size ≠ Y.size then some false else slotLoop (equal E H n) X.size X.slots Y.slots
          | e => if X.size ≠ Y.size then some false else some (wordsEq (nwords e X.size) X.words Y.words)
      | _, _ => some false

/-- The results of `superequal`. -/
inductive R3 where
  | t | nil | unbound
deriving DecidableEq, Repr

abbrev Marks := Nat → Bool

def Marks.set (m : Marks) (a : Nat) (b : Bool) : Marks := fun x => if x = a then b else m x

/-- predicates.c:143-147: the loop, with the mark bits. -/
def sloop (f : Marks → Val → Val → Option (R3 × Marks)) : Nat → Marks → List Val → List Val → Option (R3 × Marks)
  | 0, m, _, _ => some (.t, m)
  | n + 1, m, a :: as, b :: bs =>
    match f m a b with
    | some (.t, m') => sloop f n m' as bs
    | r => r
  | _ + 1, m, _, _ => some (.nil, m)

/-- predicates.c:146-150: the marks of both objects are cleared, whatever the result. -/
def unmark (a b : Nat) : Option (R3 × Marks) → Option (R3 × Marks)
  | some (r, m) => some (r, (m.set a false).set b false)
  | none => none

/-- predicates.c:124-160 `superequal`, with the mark bits of all objects. -/
def superequal (E : Env) (H : Heap) : Nat → Marks → Val → Val → Option (R3 × Marks)
  | 0, _, _, _ => none
  | n + 1, m, x, y =>
    if x = y then some (.t, m)
    else match x, y with
      | .ptr a, .ptr b =>
        let X := H a
        let Y := H b
        if X.cix ≠ Y.cix then some (.nil, m)
        else if E.issym X.cix then some (.nil, m)
        else if m a || m b then some (.unbound, m)
        else if X.elm ≠ Y.elm then some (.nil, m)
        else match X.elm with
          | .fixed =>
            unmark a b (sloop (superequal E H n) (E.objsize X.cix) ((m.set a true).set b true) X.slots Y.slots)
          | .pointer =>
            unmark a b (if X.size ≠ Y.size then some (.nil, (m.set a true).set b true)
              else sloop (superequal E H n) X.size ((m.set a true).set b true) X.slots Y.slots)
          | e => if X.size ≠ Y.size then some (.nil, m)
            else if wordsEq (nwords e X.size) X.words Y.words then some (.t, m) else some (.nil, m)
      | _, _ => some (.nil, m)

/-! ### `sxhash` -/

/-- `id[i]`: byte `i` of a vector (little-endian). -/
def byteAt (ws : List Word) (i : Nat) : Nat := (ws.getD (i / 8) 0).toNat / 256 ^ (i % 8) % 256

/-- intern.c:13-21 `rehash`; `int` arithmetic wraps. -/
def rehash (o : Obj) : Nat :=
  ((List.range o.size).foldl (fun h i => 5 * h + byteAt o.words i) o.size) % 2 ^ 29

/-- specials.c:959-961: the number of words added up. -/
def hwords (e : Elm) (s : Nat) : Nat :=
  match e with
  | .bit => s / 64
  | .char | .byte => s / 8
  | _ => s

/-- `for (i=0; i<s; i++) h += sxhash(v[i])`, and specials.c:954. -/
def hloop (f : Val → Option Word) : Nat → List Val → Word → Option Word
  | 0, _, h => some h
  | n + 1, v :: vs, h =>
    match f v with
    | some k => hloop f n vs (h + k)
    | none => none
  | _ + 1, [], _ => none

/-- specials.c:953-954 `while (islist(x)) { h += sxhash(ccar(x)); x=ccdr(x);}`; the first argument bounds
the rounds. -/
def spine (E : Env) (H : Heap) (f : Val → Option Word) : Nat → Val → Word → Option Word
  | 0, _, _ => none
  | n + 1, .ptr a, h =>
    if E.islist (H a).cix then
      match (H a).slots with
      | car :: cdr :: _ =>
        match f car with
        | some k => spine E H f n cdr (h + k)
        | none => none
      | _ => none
    else some h
  | _ + 1, _, h => some h

/-- specials.c:938-967 `sxhash`; `none`: deeper or longer than the bound.  An address is taken as
`x>>2`. -/
def sxhash (E : Env) (H : Heap) : Nat → Val → Option Word
  | 0, _ => none
  | _ + 1, .int z => some (BitVec.ofInt 64 z)
  | _ + 1, .flt b => some b
  | n + 1, .ptr a =>
    let X := H a
    if E.isstr X.cix then some (BitVec.ofNat 64 (rehash X))
    else if E.issym X.cix then some (BitVec.ofNat 64 (rehash (H (E.pname a))))
    else if E.islist X.cix then spine E H (sxhash E H n) (n + 1) (.ptr a) 0
    else match X.elm with
      | .fixed => some (BitVec.ofNat 64 a >>> 2)
      | .pointer => hloop (sxhash E H n) X.size X.slots 0
      | e => some ((X.words.take (hwords e X.size)).foldl (· + ·) 0)

/-- specials.c:970-988 `SXHASH` with the modulus `m` (2^61 when it is not given); `none`: division by
zero. -/
def SXHASH (h : Word) (m : Nat) : Option Nat :=
  if m = 0 then none else some ((h &&& 0x1fffffffffffffff#64).toNat % m)

end Eus.Eql
