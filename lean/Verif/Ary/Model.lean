import Verif.Rd.Model
import Verif.Bits.Model
set_option autoImplicit false
/-
Arrays and vectors, printed and read: lisp/c/printer.c:339-471 (`printvector`, `prinelm`, `prinary`, `printarray`), lisp/c/reader.c:294-332, 616-646 (`readvector`, `readsharp`),
lisp/l/array.l:64-121, 176-206 (`fill-initial-contents`, `make-array`, `list-dimensions`, the functions of `#nA` and `#nI`), lisp/l/readmacro.l:54-65 (`#*`).

The elements are the objects of `Verif.Rd` (integers, strings, symbols, lists of these); text is a list of bytes and is printed and read by the functions of `Verif.Rd`.
Not modelled: arrays of floats, arrays as elements, `#n(` with a size.
-/
namespace Eus.Ary
open Eus.Rd Eus.Num

/-- The entity of an array: an ordinary vector, an integer-vector, a string, a bit-vector. -/
inductive Ent where
  | objs (v : List T)
  | ints (v : List Word)
  | chars (v : List Nat)
  | bits (v : List Bool)
deriving DecidableEq, Repr

/-- array.l:92-121: an array; `fp`: the fill pointer if it is an integer, `off`: the displaced index offset. -/
structure Ary where
  ent : Ent
  dims : List Nat
  fp : Option Nat
  off : Nat
deriving DecidableEq, Repr

/-! ### printing -/

/-- printer.c:405-433 `prinelm` -/
def prinelm (p : PCfg) (lev : Int) : Ent → Nat → Option (List Nat)
  | .objs v, i => (v[i]?).bind fun x => prin1 p x lev
  | .ints v, i => (v[i]?).bind fun w => printint p.base p.down w 0 0
  | .chars v, i => (v[i]?).bind fun c => printint p.base p.down (BitVec.ofNat 64 c) 0 0
  | .bits v, i => (v[i]?).map fun b => if b then [49] else [48]

def sep (left : Nat) : List Nat := if 0 < left then [32] else []

/-- printer.c:444-447, 451-453: the loop over one dimension; the result has the text and the last `next`. -/
def rows (f : Nat → Option (List Nat × Nat)) : Nat → Nat → Nat → Option (List Nat × Nat)
  | 0, _, next => some ([], next)
  | k + 1, index, _ =>
    match f index with
    | none => none
    | some (t, next) =>
      match rows f k (index + next) next with
      | none => none
      | some (t', next') => some (t ++ sep k ++ t', next')

/-- printer.c:435-455 `prinary`: the text and the number of elements.  Simplification: an element is a dimension less with one element; the fill pointer is in `shownDims`. -/
def prinary (e : Nat → Option (List Nat)) : List Nat → Nat → Option (List Nat × Nat)
  | [], index => (e index).map fun t => (t, 1)
  | d :: ds, index =>
    match rows (prinary e ds) d index 0 with
    | none => none
    | some (t, next) => some (40 :: t ++ [41], next * d)

/-- printer.c:449: with one dimension the fill pointer takes its place. -/
def shownDims (a : Ary) : List Nat :=
  match a.dims, a.fp with
  | [_], some n => [n]
  | ds, _ => ds

/-- printer.c:465-467; make-array allows seven dimensions. -/
def prefixOf (rank : Nat) : Ent → Option (List Nat)
  | .ints _ => if rank ≤ 7 then some [35, 48 + rank, 105] else none
  | _ => if rank ≤ 7 then some [35, 48 + rank, 97] else none

/-- printer.c:457-471 `printarray`, called with `prlevel - 1` (printer.c:587); the elements are printed with one less (printer.c:452). -/
def printarray (p : PCfg) (a : Ary) (prlevel : Int := 65536) : Option (List Nat) :=
  match prefixOf a.dims.length a.ent, prinary (prinelm p (prlevel - 2) a.ent) (shownDims a) a.off with
  | some h, some (t, _) => some (h ++ t)
  | _, _ => none

/-- printer.c:398-400 -/
def elems (e : Nat → Option (List Nat)) : Nat → Nat → Option (List Nat)
  | 0, _ => some []
  | k + 1, i =>
    match e i, elems e k (i + 1) with
    | some t, some t' => some (t ++ sep k ++ t')
    | _, _ => none

/-- printer.c:339-403 `printvector` of an ordinary vector (*print-length* is looked at and not counted), printer.c:360-366 of an integer-vector, printer.c:348-355 of a bit-vector. -/
def printvector (p : PCfg) (lev : Int) : Ent → Option (List Nat)
  | .objs v =>
    if p.prlength = 0 ∧ 0 < v.length then some ([35, 40] ++ [46, 46, 46, 32] ++ [41])
    else (elems (prinelm p (lev - 1) (.objs v)) v.length 0).map fun t => [35, 40] ++ t ++ [41]
  | .ints v =>
    if v.length ≤ p.prlength then (elems (prinelm p lev (.ints v)) v.length 0).map fun t => [35, 105, 40] ++ t ++ [41]
    -- a blank has been written after every element
    else (elems (prinelm p lev (.ints v)) p.prlength 0).map fun t => [35, 105, 40] ++ t ++ sep p.prlength ++ [46, 46, 46, 32] ++ [41]
  | .bits v => some ([35, 42] ++ v.map fun b => if b then 49 else 48)
  | .chars v => some (printstr v)

/-! ### reading -/

/-- The elements along the cdrs (LENGTH and ELT of a list, sequence.c:1018-1049). -/
def conses : T → List T
  | .cons a d => a :: conses d
  | _ => []

/-- array.l:176-179 `list-dimensions` -/
def listDims : T → Option (List Nat)
  | .cons (.cons a a') d => (listDims (.cons a a')).map fun ds => (conses (.cons (.cons a a') d)).length :: ds
  | .cons a d => some [(conses (.cons a d)).length]
  | t => if t = NIL then some [0] else none

/-- LENGTH and ELT: lists and strings. -/
def seqElems : T → Option (List T)
  | .cons a d => some (conses (.cons a d))
  | .str s => some (s.map fun c => .int (.fix (BitVec.ofNat 64 c)))
  | t => if t = NIL then some [] else none

/-- vectorarray.c:80-124 `vset` -/
def Ent.put (n : Nat) (x : T) : Ent → Option Ent
  | .objs v => if n < v.length then some (.objs (v.set n x)) else none
  | .ints v =>
    match x with
    | .int m => if n < v.length then some (.ints (v.set n (bigintval m))) else none
    | _ => none
  | _ => none

/-- array.l:73-79 -/
def fillRow (major : Nat) : Nat → List T → Nat → Ent → Option Ent
  | _, [], _, v => some v
  | inc, x :: xs, offset, v =>
    match v.put offset x with
    | none => none
    | some v => if inc + 1 > major then none else fillRow major (inc + 1) xs (offset + 1) v

/-- array.l:70-72 -/
def fillRows (fill : T → Nat → Ent → Option Ent) (increments : Nat) : Nat → List T → Nat → Ent → Option Ent
  | 0, _, _, v => some v
  | _ + 1, [], _, _ => none
  | n + 1, s :: xs, offset, v =>
    match fill s offset v with
    | none => none
    | some v => fillRows fill increments n xs (offset + increments) v

/-- array.l:64-80 `fill-initial-contents` -/
def fillContents : List Nat → T → Nat → Ent → Option Ent
  | [], _, _, _ => none
  | [d], seq, offset, v => (seqElems seq).bind fun xs => fillRow d 0 xs offset v
  | d :: d' :: ds, seq, offset, v =>
    (seqElems seq).bind fun xs => fillRows (fillContents (d' :: ds)) ((d' :: ds).foldl (· * ·) 1) d xs offset v

/-- The type asked for with :element-type -/
inductive Ty where
  | obj
  | int
deriving DecidableEq, Repr

def Ty.make (n : Nat) : Ty → Ent
  | .obj => .objs (List.replicate n NIL)
  | .int => .ints (List.replicate n 0)

/-- array.l:82-121 `make-array` with a list of dimensions, :element-type and :initial-contents -/
def makeArray (ty : Ty) (dims : List Nat) (contents : T) : Option Ary :=
  if dims.length > 7 then none
  else if contents = NIL then some ⟨ty.make (max 1 (dims.foldl (· * ·) 1)), dims, none, 0⟩
  else (fillContents dims contents 0 (ty.make (max 1 (dims.foldl (· * ·) 1)))).map fun v => ⟨v, dims, none, 0⟩

inductive V where
  | ary (a : Ary)
  | vec (v : Ent)
deriving DecidableEq, Repr

inductive RV where
  | ok (v : V) (rest : List Nat)
  | err
  | ub
  | other
deriving DecidableEq, Repr

/-- lispio.c:172-186 (read strm t t t) and the use of what was read -/
def withRead (base : Nat) (s : List Nat) (f : T → Option V) : RV :=
  match reader base s with
  | (.val t, rest) => match f t with
    | some v => .ok v rest
    | none => .err
  | (.unbound, rest) => match f NIL with
    | some v => .ok v rest
    | none => .err
  | (.eof, _) => .err
  | (.err, _) => .err
  | (.ub, _) => .ub
  | (.other, _) => .other

/-- vectorarray.c:25-36 `integer-vector` -/
def intVector : List T → Option (List Word)
  | [] => some []
  | .int m :: xs => (intVector xs).map fun ws => bigintval m :: ws
  | _ :: _ => none

/-- array.l:181-183 -/
def readA (l : T) : Option V := ((listDims l).bind fun ds => makeArray .obj ds l).map V.ary

/-- array.l:193-199 -/
def readI (num : Nat) (l : T) : Option V :=
  if num = 0 then (intVector (conses l)).map fun ws => .vec (.ints ws)
  else ((listDims l).bind fun ds => makeArray .int ds l).map V.ary

inductive VR where
  | done (v : List T) (rest : List Nat)
  | err
  | ub
  | other
deriving DecidableEq, Repr

def VR.push (t : T) : VR → VR
  | .done v rest => .done (t :: v) rest
  | r => r

/-- reader.c:318-332 `readvector` without a size.  The first argument bounds the number of rounds. -/
def readvector (base : Nat) : Nat → List Nat → VR
  | 0, _ => .ub
  | n + 1, s =>
    match nextch s with
    | .ub => .ub
    | .eof rest => .done [] rest
    | .ch c s' =>
      if c = 41 then .done [] s'
      else
        match read1 base n (c :: s') with
        | (.val t, rest) => (readvector base n rest).push t
        | (.err, _) => .err
        | (.other, _) => .other
        | _ => .ub

/-- readmacro.l:54-61: the first character must be there. -/
def readBits : List Nat → RV
  | [] => .err
  | s => .ok (.vec (.bits ((s.takeWhile fun c => c = 48 ∨ c = 49).map fun c => decide (c = 49)))) (s.dropWhile fun c => c = 48 ∨ c = 49)

/-- reader.c:616-646 `readsharp` for the characters of arrays and vectors -/
def sharp (base : Nat) (s : List Nat) : RV :=
  match s with
  | [] => .other
  | c :: s1 =>
    let d : Nat × Next := if 48 ≤ c ∧ c ≤ 57 then sharpNum s.length (c - 48) s1 else (0, .ch c s1)
    match d.2 with
    | .ub => .ub
    | .eof _ => .other
    | .ch e rest =>
      if to_upper e = 65 then withRead base rest readA
      else if to_upper e = 73 then withRead base rest (readI d.1)
      else if e = 40 ∧ d.1 = 0 then
        match readvector base (rest.length + 1) rest with
        | .done v rest => .ok (.vec (.objs v)) rest
        | .err => .err
        | .ub => .ub
        | .other => .other
      else if e = 42 then readBits rest
      else .other

/-- reader.c:1014-1032: `read` of something that begins with `#` -/
def readObj (base : Nat) (s : List Nat) : RV :=
  match skipParens (s.length + 1) s with
  | .ch c s' => if c = 35 then sharp base s' else .other
  | .ub => .ub
  | .eof _ => .other

end Eus.Ary
