set_option autoImplicit false
/-
Printing and reading shared and circular structure: `*print-circle*`, `#n=` and `#n#`.
lisp/c/printer.c:310-333, 470-500, 545-634; lisp/c/reader.c:224-290, 294-332, 780-824.

Objects are conses, vectors and strings in a heap; numbers, symbols and NIL are values.  What is printed is a list of tokens; how a token is spelled and read
again is the matter of other parts of the model (`Verif/Rd`).  Left out: uninterned symbols, `#'`, which is treated like the quote, instances of other classes,
and arrays of more dimensions.  `static` variables are taken to belong to one thread (`mark_lock` is held).  The functions are recursive over structure that may be
circular, so they take a number of steps; `none` means that it was not enough, or that a pointer goes nowhere.
-/
namespace Eus.Circ

/-- A value: NIL, the symbol QUOTE, another symbol, an integer, a pointer.  For the reader also: the object that stands for a label not yet defined (`labref`), and a place in the chain of places waiting for that label (`addunsolved`). -/
inductive Val where
  | nil
  | quote
  | sym (n : Nat)
  | num (n : Nat)
  | ptr (a : Nat)
  | lab (n : Nat)
  | hole (n : Nat)
deriving DecidableEq, Repr

/-- An object.  The first word of a vector or string is its size. -/
inductive Cell where
  | cons (a d : Val)
  | vec (size : Nat) (vs : List Val)
  | str (size : Nat) (k : Nat)
deriving DecidableEq, Repr

/-- `p->c.obj.iv[0]`: the car, or the size. -/
def Cell.first : Cell → Val
  | .cons a _ => a
  | .vec s _ => .num s
  | .str s _ => .num s

/-- `pointer_update(p->c.obj.iv[0], …)`. -/
def Cell.setFirst (w : Val) : Cell → Cell
  | .cons _ d => .cons w d
  | .vec s vs => .vec (match w with | .num n => n | _ => s) vs
  | .str s k => .str (match w with | .num n => n | _ => s) k

/-- What an object points to: car and cdr; the elements. -/
def Cell.slots : Cell → List Val
  | .cons a d => [a, d]
  | .vec s vs => vs.take s
  | .str _ _ => []

abbrev Heap := List Cell

/-- Tokens of printed text: parentheses, `#(`, the dot, the quote, `#n=`, `#n#`, a symbol or number, a string of so many characters, `#` for what is too deep, `...` for what is too long. -/
inductive Tok where
  | lp
  | rp
  | vp
  | dot
  | quo
  | lab (n : Nat)
  | ref (n : Nat)
  | atom (v : Val)
  | str (s k : Nat)
  | sharp
  | dots
deriving DecidableEq, Repr

/-- The printer's state: the heap, the objects with `pmark` and `smark`, and `ixvec` from 1 on. -/
structure PSt where
  heap : Heap
  pm : List Nat
  sm : List Nat
  ix : List Val
deriving DecidableEq, Repr

/-- `printmark` (printer.c:310-332): `pmark` when an object is met first; when it is met again, `smark`, a number in the place of its first word, and the word on the stack. -/
def mark : Nat → PSt → Val → Option PSt
  | 0, _, _ => none
  | n + 1, st, v =>
    match v with
    | .ptr a =>
      match st.heap[a]? with
      | none => none
      | some c =>
        if a ∉ st.pm then c.slots.foldlM (mark n) { st with pm := a :: st.pm }
        else if a ∈ st.sm then some st
        else some { st with sm := st.sm ++ [a], ix := st.ix ++ [c.first], heap := st.heap.set a (c.setFirst (.num (st.ix.length + 1))) }
    | _ => some st

/-- `(quote x)`: the cdr is a list of one element (printer.c:480); the element as it is in the heap. -/
def quoted (h : Heap) (fobj d : Val) : Option Val :=
  if fobj = .quote then
    match d with
    | .ptr b =>
      match h[b]? with
      | some (.cons e .nil) => some e
      | _ => none
    | _ => none
  else none

/-- `islist(x) && !s_marked(x)` (printer.c:492): car and cdr. -/
def listCell (st : PSt) (x : Val) : Option (Val × Val) :=
  match x with
  | .ptr b =>
    match st.heap[b]? with
    | some (.cons e d) => if b ∈ st.sm then none else some (e, d)
    | _ => none
  | _ => none

mutual
/-- `prin1` (printer.c:545-589).  Only `pmark` changes.  `len` is `*print-length*`, `lev` the levels left. -/
def prin1 (st : PSt) (len : Nat) : Nat → Nat → List Nat → Val → Option (List Tok × List Nat)
  | 0, _, _, _ => none
  | n + 1, lev, pm, v =>
    if lev = 0 then some ([.sharp], pm)
    else
      match v with
      | .ptr a =>
        match st.heap[a]? with
        | none => none
        | some c =>
          if a ∈ st.sm then
            match c.first with
            | .num k =>
              if a ∈ pm then
                match prinObj st len n (lev - 1) (pm.erase a) c (st.ix.getD (k - 1) .nil) with
                | some (ts, pm') => some (.lab k :: ts, pm')
                | none => none
              else some ([.ref k], pm)
            | _ => none
          else prinObj st len n (lev - 1) pm c c.first
      | v => some ([.atom v], pm)

/-- `printlist` up to the loop (printer.c:470-491), `printvector` (printer.c:392-402) and `printstr`, given the true first word. -/
def prinObj (st : PSt) (len : Nat) : Nat → Nat → List Nat → Cell → Val → Option (List Tok × List Nat)
  | 0, _, _, _, _ => none
  | n + 1, lev, pm, c, fobj =>
    match c with
    | .cons _ d =>
      match quoted st.heap fobj d with
      | some e =>
        match prin1 st len n (lev - 1) pm e with
        | some (ts, pm') => some (.quo :: ts, pm')
        | none => none
      | none =>
        match prin1 st len n lev pm fobj with
        | some (ts, pm') =>
          match prinTail st len n lev len pm' d with
          | some (us, pm'') => some (.lp :: ts ++ us, pm'')
          | none => none
        | none => none
    | .vec _ vs =>
      match fobj with
      | .num s =>
        if len = 0 then some ([.vp] ++ (if s = 0 then [] else [.dots]) ++ [.rp], pm)
        else
          match (vs.take s).foldlM (fun (acc : List Tok × List Nat) v =>
              (prin1 st len n lev acc.2 v).map fun r => (acc.1 ++ r.1, r.2)) ([.vp], pm) with
          | some (ts, pm') => some (ts ++ [.rp], pm')
          | none => none
      | _ => none
    | .str _ k =>
      match fobj with
      | .num s => some ([.str s k], pm)
      | _ => none

/-- The loop of `printlist` (printer.c:492-500). -/
def prinTail (st : PSt) (len : Nat) : Nat → Nat → Nat → List Nat → Val → Option (List Tok × List Nat)
  | 0, _, _, _, _ => none
  | n + 1, lev, prlength, pm, x =>
    match listCell st x with
    | some (e, d) =>
      if prlength - 1 = 0 then some ([.dots, .rp], pm)
      else
        match prin1 st len n lev pm e with
        | some (ts, pm') =>
          match prinTail st len n lev (prlength - 1) pm' d with
          | some (us, pm'') => some (ts ++ us, pm'')
          | none => none
        | none => none
    | none =>
      if x = .nil then some ([.rp], pm)
      else
        match prin1 st len n lev pm x with
        | some (ts, pm') => some (.dot :: ts ++ [.rp], pm')
        | none => none
end

/-- printer.c:597-599: the first word is put back unless the object still has its `pmark`, that is, was not printed ("smarked?"). -/
def restore (st : PSt) (a : Nat) (c : Cell) : Cell :=
  if a ∈ st.sm ∧ a ∉ st.pm then
    match c.first with
    | .num k => c.setFirst (st.ix.getD (k - 1) .nil)
    | _ => c
  else c

/-- `printunmark` (printer.c:592-609). -/
def unmark : Nat → PSt → Val → Option PSt
  | 0, _, _ => none
  | n + 1, st, v =>
    match v with
    | .ptr a =>
      match st.heap[a]? with
      | none => none
      | some c =>
        if a ∉ st.sm ∧ a ∉ st.pm then some st
        else
          (restore st a c).slots.foldlM (unmark n)
            { st with heap := st.heap.set a (restore st a c), pm := st.pm.erase a, sm := st.sm.erase a }
    | _ => some st

/-- `prinx` with `*print-circle*` (printer.c:611-634): the text, and the state afterwards. -/
def prinx (n len lev : Nat) (h : Heap) (v : Val) : Option (List Tok × PSt) :=
  match mark n { heap := h, pm := [], sm := [], ix := [] } v with
  | none => none
  | some st =>
    match prin1 st len n lev st.pm v with
    | none => none
    | some (ts, pm) =>
      match unmark n { st with pm := pm } v with
      | none => none
      | some st' => some (ts, st')

/-- The reader's state: the heap, and the labels with their values, `none` while the labelled object is being read. -/
structure RSt where
  heap : Heap
  labs : List (Nat × Option Val)
deriving DecidableEq, Repr

/-- What is stored for an element (reader.c:807-808, 264-276): a label not yet defined makes the place wait for it. -/
def store : Val → Val
  | .lab n => .hole n
  | v => v

/-- A place that waits for the label gets its value (reader.c:247-261). -/
def Val.fill (v : Val) (k : Nat) (r : Val) : Val := if v = .hole k then r else v

/-- All places of an object. -/
def Cell.fill (k : Nat) (r : Val) : Cell → Cell
  | .cons a d => .cons (a.fill k r) (d.fill k r)
  | .vec s vs => .vec s (vs.map fun v => v.fill k r)
  | .str s t => .str s t

/-- `findlabel` (reader.c:227-235). -/
def findlabel (k : Nat) (labs : List (Nat × Option Val)) : Option (Option Val) := (labs.find? (fun p => p.1 == k)).map Prod.snd

/-- `pointer_update(newlab->c.lab.value, result)` (reader.c:248). -/
def setlabel (k : Nat) (r : Val) (labs : List (Nat × Option Val)) : List (Nat × Option Val) :=
  labs.map fun p => if p.1 = k then (k, some r) else p

/-- The conses of a list, made from the end (reader.c:805-809). -/
def build (tail : Val) : List Val → Heap → Val × Heap
  | [], h => (tail, h)
  | e :: es, h =>
    let r := build tail es h
    (.ptr r.2.length, r.2 ++ [.cons (store e) (store r.1)])

mutual
/-- `read1` (reader.c:966-1015) on tokens.  A closing parenthesis, a dot, `#` and `...` where an object should begin are taken as errors. -/
def read1 : Nat → RSt → List Tok → Option (Val × List Tok × RSt)
  | 0, _, _ => none
  | _ + 1, _, [] => none
  | n + 1, rs, t :: ts =>
    match t with
    | .atom v => some (v, ts, rs)
    | .str s k => some (.ptr rs.heap.length, ts, { rs with heap := rs.heap ++ [.str s k] })
    | .lab k =>
      match findlabel k rs.labs with
      | some _ => none
      | none =>
        match read1 n { rs with labs := (k, none) :: rs.labs } ts with
        | some (v, ts', rs') => some (v, ts', { heap := rs'.heap.map (Cell.fill k v), labs := setlabel k v rs'.labs })
        | none => none
    | .ref k =>
      match findlabel k rs.labs with
      | none => none
      | some none => some (.lab k, ts, rs)
      | some (some v) => some (v, ts, rs)
    | .quo =>
      match read1 n rs ts with
      | some (v, ts', rs') =>
        some (.ptr (rs'.heap.length + 1), ts', { rs' with heap := rs'.heap ++ [.cons v .nil, .cons .quote (.ptr rs'.heap.length)] })
      | none => none
    | .lp =>
      match readElems n rs ts with
      | some (vs, tail, ts', rs') =>
        let r := build tail vs rs'.heap
        some (r.1, ts', { rs' with heap := r.2 })
      | none => none
    | .vp =>
      match readVec n rs ts with
      | some (vs, ts', rs') =>
        some (.ptr rs'.heap.length, ts', { rs' with heap := rs'.heap ++ [.vec vs.length (vs.map store)] })
      | none => none
    | _ => none

/-- The loop of `read_delimited_list` (reader.c:789-804): the elements and what comes after the dot. -/
def readElems : Nat → RSt → List Tok → Option (List Val × Val × List Tok × RSt)
  | 0, _, _ => none
  | _ + 1, rs, .rp :: ts => some ([], .nil, ts, rs)
  | n + 1, rs, .dot :: ts =>
    match read1 n rs ts with
    | some (v, .rp :: ts', rs') => some ([], v, ts', rs')
    | _ => none
  | n + 1, rs, ts =>
    match read1 n rs ts with
    | some (v, ts', rs') =>
      match readElems n rs' ts' with
      | some (vs, tail, ts'', rs'') => some (v :: vs, tail, ts'', rs'')
      | none => none
    | none => none

/-- The loop of `readvector` (reader.c:319-331). -/
def readVec : Nat → RSt → List Tok → Option (List Val × List Tok × RSt)
  | 0, _, _ => none
  | _ + 1, rs, .rp :: ts => some ([], ts, rs)
  | n + 1, rs, ts =>
    match read1 n rs ts with
    | some (v, ts', rs') =>
      match readVec n rs' ts' with
      | some (vs, ts'', rs'') => some (v :: vs, ts'', rs'')
      | none => none
    | none => none
end

/-- `reader` (reader.c:1017-1031): the table of labels is emptied before. -/
def readx (n : Nat) (h : Heap) (ts : List Tok) : Option (Val × Heap) :=
  match read1 n { heap := h, labs := [] } ts with
  | some (v, [], rs) => some (v, rs.heap)
  | _ => none

end Eus.Circ
