set_option autoImplicit false
/-
`become` and `replace-object`: lisp/c/leo.c:654-714; vectors: makes.c:417-436, vectorarray.c:45-68.  64-bit machine, little endian.
Simplified: sizes are natural numbers except where a negative one is given; an `int` product above 2^31 is a separate outcome.
-/
namespace Eus.Bec

/-- eus.h:113-120 -/
inductive Elm where
  | fixed | bit | char | byte | int | float | foreign | pointer
deriving DecidableEq, Repr

/-- A vector in its cell: element type, the size slot, and the words after it; `data` = buddysize - 2 of them belong to the cell -/
structure Vec where
  elm : Elm
  size : Int
  words : Nat → Nat
  data : Nat

/-- The outcomes -/
inductive Res (α : Type) where
  | ok (a : α)
  | recordToVector
  | typeMismatch
  | arrayIndex
  | overflow

/-- leo.c:668-685: the new length -/
def newLength (e1 e2 : Elm) (n : Nat) : Nat :=
  match e1 with
  | .bit => match e2 with
    | .char | .byte => (n + 7) / 8
    | .bit => n
    | _ => (n + 64 - 1) / 64
  | .char | .byte => match e2 with
    | .char | .byte => n
    | .bit => n * 8
    | _ => (n + 8 - 1) / 8
  | _ => match e2 with
    | .char | .byte => n * 8
    | .bit => n * 64
    | _ => n

/-- leo.c:661-689: `(become v class)` for a class of vectors with elements e2 -/
def becomeClass (v : Vec) (e2 : Elm) : Res Vec :=
  if v.elm = .fixed then .recordToVector
  else if v.elm = .pointer ∧ v.elm ≠ e2 then .typeMismatch
  else
    let n := newLength v.elm e2 v.size.toNat
    if n < 2 ^ 31 then .ok { v with elm := e2, size := n } else .overflow

/-- leo.c:692-698: the words for the new size; C division truncates -/
def wordsFor (e : Elm) (newsize : Int) : Int :=
  match e with
  | .bit => (newsize + 64 - 1).tdiv 64
  | .byte | .char => (newsize + 64 / 8 - 1).tdiv (64 / 8)
  | _ => newsize

/-- leo.c:690-702: `(become v newsize)` -/
def becomeSize (v : Vec) (newsize : Int) : Res Vec :=
  if wordsFor v.elm newsize + 2 ≤ (v.data : Int) + 2 then .ok { v with size := newsize } else .arrayIndex

/-- vectorarray.c:50-56: element of a byte vector or a character of a string -/
def byteAt (v : Vec) (i : Nat) : Nat := v.words (i / 8) >>> (8 * (i % 8)) % 256

/-- vectorarray.c:58-60: element of a bit vector -/
def bitAt (v : Vec) (i : Nat) : Bool := (v.words (i / 64)).testBit (i % 64)

/-- vectorarray.c:48, 67-68: element of a vector of words -/
def wordAt (v : Vec) (i : Nat) : Nat := v.words i

/-- An object with its slots: `vars` slots are declared by its class -/
structure Obj where
  vars : Nat
  slots : Nat → Nat

/-- leo.c:704-714: `(replace-object dest src)`: the loop from n-1 down -/
def replaceLoop (dest : Nat → Nat) (src : Nat → Nat) : Nat → (Nat → Nat)
  | 0 => dest
  | n + 1 => replaceLoop (fun i => if i = n then src n else dest i) src n

/-- leo.c:704-714 -/
def replaceObject (dest src : Obj) : Obj := { dest with slots := replaceLoop dest.slots src.slots (min src.vars dest.vars) }

/-- A vector as an object for `objsize` (eus.h:887): its class declares one slot, the size -/
def asObj (v : Vec) : Obj := { vars := 1, slots := fun i => if i = 0 then v.size.toNat else v.words (i - 1) }

/-- The length and the elements of an object that is a vector -/
def ofObj (v : Vec) (o : Obj) : Vec := { v with size := o.slots 0, words := fun i => o.slots (i + 1) }

end Eus.Bec
