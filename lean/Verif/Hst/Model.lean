set_option autoImplicit false
/-
The history of lines typed to the interpreter, and the line editor (lisp/l/history.l).
Simplifications: the texts are of any type, and whether a text contains the pattern looked for is a
parameter.  `add-history` shifts the array with `replace` on itself, whose C code is a memcpy of
overlapping memory; here it is taken to copy upwards, as it does in practice (see C71).  The screen and
the switching of the terminal between raw and cooked mode are not modelled; the line is a list that
nobody else has.
-/
namespace Eus.Hst

variable {α : Type}

/-- `*history*`, `*history-max*`, `*history-index*`, `*history-sequence*`.  An element is nil or a
sequence number with a text (nil for the first). -/
structure Hist (α : Type) where
  arr : List (Option (Nat × Option α))
  max : Nat
  index : Nat
  seq : Nat
deriving DecidableEq

/-- history.l:124-128 `new-history`, when `*history-sequence*` is `q`. -/
def newHistory (n q : Nat) : Hist α :=
  { arr := (List.replicate n none).set 0 (some (q, none)), max := n, index := 0, seq := q }

/-- history.l:130-140 `add-history`. -/
def addHistory (H : Hist α) (h : α) : Hist α :=
  let H := { H with seq := H.seq + 1, index := H.index + 1 }
  let H := if H.index ≥ H.max then
      { H with index := H.max - 1, arr := H.arr.drop 1 ++ H.arr.drop (H.arr.length - 1) }
    else H
  { H with arr := H.arr.set H.index (some (H.seq, some h)) }

/-- What `get-history` gives: a text (or nil), or an error. -/
inductive Got (α : Type) where
  | text (t : Option α)
  | err
deriving DecidableEq

/-- `(cadr (elt *history* i))`. -/
def textAt (H : Hist α) (i : Int) : Got α :=
  if i < 0 then .err
  else match H.arr[i.toNat]? with
    | some (some e) => .text e.2
    | some none => .text none
    | none => .err

/-- history.l:151-155: a number.  `(car (aref *history* 1))` is nil, and the subtraction an error, when
nothing has been added; with one element there is no `(aref *history* 1)`. -/
def getNumber (H : Hist α) (n : Int) : Got α :=
  if n ≤ 0 then textAt H (H.index + n - 1)
  else match H.arr[1]? with
    | some (some e) => textAt H (min (H.index : Int) (max 0 (n - e.1 - (-1))))
    | _ => .err

/-- history.l:156-161: a pattern; the loop from `i` down to 1. -/
def getPattern (H : Hist α) (hit : Option α → Bool) : Nat → Option α
  | 0 => none
  | i + 1 => match H.arr[i + 1]? with
    | some (some e) => if hit e.2 then e.2 else getPattern H hit i
    | _ => if hit none then none else getPattern H hit i

/-- history.l:149-161 `get-history` with a pattern. -/
def getHistory (H : Hist α) (hit : Option α → Bool) : Option α := getPattern H hit (H.index - 1)

/-- history.l:142-147 `print-history`: what is shown. -/
def printHistory (H : Hist α) : List (Nat × Option α) := (H.arr.take (H.index + 1)).filterMap id

/-! ### the line editor -/

/-- The line, the place of the cursor and the length. -/
structure Ed where
  line : List Nat
  index : Nat
  fin : Nat
deriving DecidableEq, Repr

/-- common.l:367-375 `list-insert`. -/
def listInsert (x : Nat) (pos : Nat) (l : List Nat) : List Nat :=
  if l = [] then [x]
  else if pos ≥ l.length then l ++ [x]
  else if pos = 0 then x :: l
  else l.take pos ++ x :: l.drop pos

/-- common.l:377-381 `list-delete`. -/
def listDelete (l : List Nat) (n : Nat) : List Nat :=
  if n = 0 then l.drop 1 else l.take n ++ l.drop (n + 1)

/-- What a key does: go on, or leave with a line (nil for ^C). -/
inductive Act where
  | go (e : Ed)
  | leave (l : List Nat)
  | err
deriving DecidableEq, Repr

/-- history.l:31-92: the dispatch table and its functions. -/
def key (c : Nat) (e : Ed) : Act :=
  if c ≥ 128 then .err
  else if c = 1 then .go { e with index := 0 }
  else if c = 2 ∨ c = 8 then .go { e with index := e.index - 1 }
  else if c = 3 then .leave []
  else if c = 4 then
    .go (if e.index < e.fin then { e with line := listDelete e.line e.index, fin := e.fin - 1 } else e)
  else if c = 6 ∨ c = 11 then .go (if e.index < e.fin then { e with index := e.index + 1 } else e)
  else if c = 7 ∨ c = 18 then .go { e with index := e.fin }
  else if c = 10 ∨ c = 13 then .leave e.line
  else if c = 12 then .go { e with index := e.fin }
  else if c = 21 then .go ⟨[], 0, 0⟩
  else if c = 127 then
    .go (if e.index > 0 then { line := listDelete e.line (e.index - 1), index := e.index - 1, fin := e.fin - 1 } else e)
  else if c < 32 then .go e
  else .go { line := listInsert c e.index e.line, index := e.index + 1, fin := e.fin + 1 }

/-- How editing ends. -/
inductive Res where
  | line (l : List Nat)
  | nil
  | err
  | more (e : Ed)
deriving DecidableEq, Repr

/-- history.l:95-116 `line-edit`: the keys typed so far. -/
def edit : List Nat → Ed → Res
  | [], e => .more e
  | c :: r, e => match key c e with
    | .go e' => edit r e'
    | .leave [] => .nil
    | .leave _ => .line e.line
    | .err => .err

/-- history.l:97-99: where it begins. -/
def start (l : List Nat) : Ed := ⟨l, l.length, l.length⟩

end Eus.Hst
