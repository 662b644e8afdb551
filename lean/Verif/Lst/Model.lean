import Mathlib.Algebra.Group.Defs
set_option autoImplicit false
/-
Functions on lists of lisp/l/common.l and lisp/c/lists.c, the mapping functions of lisp/c/specials.c,
and property lists, by contents.

* A list is represented by the list of its elements; elements are opaque values `α`.
* `t x y` is the outcome of the comparison of `item` and `(key element)` in `SUPERMEMBER` after :test /
  :test-not have been resolved (lists.c:306-312); keys have type `κ`; all are pure functions.
* Functions passed by the user are pure and total, except where the result type is an `Option`, with
  `none` for a Lisp error.
-/
namespace Eus.Lst

variable {α κ β : Type}

/-! ### member, set functions -/

/-- lists.c:294-315 `SUPERMEMBER` (`member`, common.l:441-442): the tail, `[]` for NIL. -/
def member (t : κ → κ → Bool) (key : α → κ) (item : κ) : List α → List α
  | [] => []
  | x :: l => if t item (key x) then x :: l else member t key item l

/-- common.l:383-386 `adjoin`; here without :key, so that item and elements are compared directly. -/
def adjoin (t : α → α → Bool) (item : α) (list : List α) : List α :=
  if (member t id item list).isEmpty then item :: list else list

/-- common.l:383-386 `adjoin` with :key, items and keys being the same kind of object: the key is
applied to the elements only. -/
def adjoinKey (t : α → α → Bool) (key : α → α) (item : α) (list : List α) : List α :=
  if (member t key item list).isEmpty then item :: list else list

/-- common.l:390-397, one `dolist` of `union`. -/
def unionLoop (t : κ → κ → Bool) (key : α → κ) : List α → List α → List α
  | [], result => result
  | x :: l, result =>
    if (member t key (key x) result).isEmpty then unionLoop t key l (x :: result) else unionLoop t key l result

/-- common.l:388-398 `union`. -/
def union (t : κ → κ → Bool) (key : α → κ) (list1 list2 : List α) : List α :=
  (unionLoop t key list2 (unionLoop t key list1 [])).reverse

/-- common.l:402-405, the `dolist` of `intersection`. -/
def interLoop (t : κ → κ → Bool) (key : α → κ) (list2 : List α) : List α → List α → List α
  | [], r => r
  | x :: l, r =>
    if (member t key (key x) list2).isEmpty then interLoop t key list2 l r
    else interLoop t key list2 l (x :: r)

/-- common.l:400-406 `intersection`. -/
def intersection (t : κ → κ → Bool) (key : α → κ) (list1 list2 : List α) : List α :=
  interLoop t key list2 list1 []

/-- common.l:411-414, the `dolist` of `set-difference`. -/
def diffLoop (t : κ → κ → Bool) (key : α → κ) (list2 : List α) : List α → List α → List α
  | [], r => r
  | x :: l, r =>
    if (member t key (key x) list2).isEmpty then diffLoop t key list2 l (x :: r)
    else diffLoop t key list2 l r

/-- common.l:408-415 `set-difference`. -/
def setDifference (t : κ → κ → Bool) (key : α → κ) (list1 list2 : List α) : List α :=
  (diffLoop t key list2 list1 []).reverse

/-- common.l:420-423 and 424-427, the loops of `set-exclusive-or`: it is the keyed element that is
compared and pushed. -/
def xorLoop (t : α → α → Bool) (key : α → α) (other : List α) : List α → List α → List α
  | [], r => r
  | x :: l, r =>
    if (member t key (key x) other).isEmpty then xorLoop t key other l (key x :: r)
    else xorLoop t key other l r

/-- common.l:417-428 `set-exclusive-or` (`nconc` of two fresh lists). -/
def setExclusiveOr (t : α → α → Bool) (key : α → α) (list1 list2 : List α) : List α :=
  xorLoop t key list2 list1 [] ++ xorLoop t key list1 list2 []

/-- common.l:932 `every` on one list. -/
def everyList (pred : α → Bool) : List α → Bool
  | [] => true
  | x :: l => if pred x then everyList pred l else false

/-- common.l:445-447 `subsetp`: the key is applied to the elements of `super` only. -/
def subsetp (t : α → α → Bool) (key : α → α) (sub super : List α) : Bool :=
  everyList (fun s => !(member t key s super).isEmpty) sub

/-! ### assoc -/

/-- lists.c:351-371 `SUPERASSOC` without :key (`assoc`, common.l:443-444): elements that are not pairs
(`none`) are skipped. -/
def assoc (t : κ → κ → Bool) (item : κ) : List (Option (κ × β)) → Option (κ × β)
  | [] => none
  | none :: l => assoc t item l
  | some p :: l => if t item p.1 then some p else assoc t item l

/-- common.l:437-439 `rassoc`. -/
def rassoc (t : κ → κ → Bool) (item : κ) : List (β × κ) → Option (β × κ)
  | [] => none
  | p :: l => if t item p.2 then some p else rassoc t item l

/-- common.l:524-527 `pairlis`; `nil` is what `(car nil)` returns. -/
def pairlis (nil : β) : List α → List β → List (α × β) → List (α × β)
  | [], _, alist => alist
  | x :: l1, [], alist => (x, nil) :: pairlis nil l1 [] alist
  | x :: l1, y :: l2, alist => (x, y) :: pairlis nil l1 l2 alist

/-! ### merge -/

/-- common.l:991-1000, the loop of `merge`; `le e1 e2` is `(funcall pred (funcall key e1) (funcall key e2))`,
`n` the number of rounds left; the elements of `result` are returned in order. -/
def mergeLoop (le : α → α → Bool) (seq1 seq2 : List α) : Nat → Nat → Nat → List α
  | 0, _, _ => []
  | n + 1, i1, i2 =>
    match seq1[i1]?, seq2[i2]? with
    | none, none => []
    | none, some e => e :: mergeLoop le seq1 seq2 n i1 (i2 + 1)
    | some e, none => e :: mergeLoop le seq1 seq2 n (i1 + 1) i2
    | some e1, some e2 =>
      if le e1 e2 then e1 :: mergeLoop le seq1 seq2 n (i1 + 1) i2
      else e2 :: mergeLoop le seq1 seq2 n i1 (i2 + 1)

/-- common.l:985-1001 `merge`, result class not `cons` or arguments not both lists. -/
def merge (le : α → α → Bool) (seq1 seq2 : List α) : List α :=
  mergeLoop le seq1 seq2 (seq1.length + seq2.length) 0 0

/-- common.l:968-970, the first loop of `merge-list`.  `q x y` is `pred` applied to `(key (car list))`
and `(key y)`; the list may be empty, `x = none`, and then `(car list)` is NIL.  `none`: error. -/
def mlLoop1 (q : Option α → α → Option Bool) (list1 : List α) : List α → List α → Option (List α × List α)
  | [], result => some (result, [])
  | y :: list2, result =>
    match q list1.head? y with
    | none => none
    | some true => some (result, y :: list2)
    | some false => mlLoop1 q list1 list2 (y :: result)

/-- common.l:975, the inner loop of `merge-list`.  `p1` is a zipper into `list1`: the cells before `p1`
(nearest first, `pre`), the first element `x` of `p1`, and its rest.  The result `none` inside `some`: `p1`
has become NIL. -/
def mlInner (q : Option α → α → Option Bool) (e2 : α) : List α → α → List α →
    Option (List α × Option (α × List α))
  | pre, x, [] =>
    match q none e2 with
    | none => none
    | some true => some (x :: pre, none)
    | some false => some (pre, some (x, []))
  | pre, x, z :: rest =>
    match q (some z) e2 with
    | none => none
    | some true => mlInner q e2 (x :: pre) z rest
    | some false => some (pre, some (x, z :: rest))

/-- common.l:973-982, the second loop of `merge-list`; `list2` decreases.  The result is the whole of
`list1` as it is after the pointer surgery, and what is left of `list2`. -/
def mlLoop2 (q : Option α → α → Option Bool) : List α → List α → α → List α → Option (List α × List α)
  | [], pre, x, rest => some (pre.reverse ++ x :: rest, [])
  | y :: list2, pre, x, [] => some (pre.reverse ++ [x], y :: list2)
  | y :: list2, pre, x, z :: rest =>
    match mlInner q y pre x (z :: rest) with
    | none => none
    | some (pre', none) => some (pre'.reverse, y :: list2)
    | some (pre', some (x', rest')) =>
      -- (cdr p1) := list2, (cdr list2) := rest', p1 := list2
      mlLoop2 q list2 (x' :: pre') y rest'

/-- common.l:967-983 `merge-list`.  The destructive updates are modelled by their effect on the contents;
`list1` and `list2` must not share cells. -/
def mergeList (q : Option α → α → Option Bool) (list1 list2 : List α) : Option (List α) :=
  match mlLoop1 q list1 list2 [] with
  | none => none
  | some (result, list2) =>
    match list1 with
    -- p1 = NIL: the second loop does nothing
    | [] => some (result.reverse ++ list2)
    | x :: rest =>
      match mlLoop2 q list2 [] x rest with
      | none => none
      | some (l1, l2) => some (result.reverse ++ l1 ++ l2)

/-! ### reduce, some, every -/

/-- common.l:962-964, the `dotimes` of `reduce`; `none`: index error of `elt`. -/
def reduceLoop (f : α → α → α) (seq : List α) : Nat → Nat → α → Option α
  | 0, _, acc => some acc
  | n + 1, i, acc =>
    match seq[i]? with
    | none => none
    | some x => reduceLoop f seq n (i + 1) (f acc x)

/-- common.l:949-965 `reduce` with `start <= end`; `f0` is `(funcall func)`; `init = none` is an
:initial-value of NIL or none at all, which the code does not distinguish. -/
def reduce (f : α → α → α) (f0 : α) (fromEnd : Bool) (start stop : Nat) (init : Option α) (seq : List α) :
    Option α :=
  let length := stop - start
  let seq := if fromEnd then seq.reverse else seq
  if length = 1 ∧ init = none then seq[start]?
  else if length = 0 then
    match init with
    | some v => some v
    | none => some f0
  else match init with
    | some v => reduceLoop f seq length start v
    | none =>
      match seq[start]?, seq[start + 1]? with
      | some x, some y => reduceLoop f seq (length - 2) (start + 2) (f x y)
      | _, _ => none

/-- common.l:936 and 943: the `i`-th elements of all arguments; `none`: index error of `elt`. -/
def nths (args : List (List α)) (i : Nat) : Option (List α) := args.mapM fun a => a[i]?

/-- common.l:935-937 and 942-944, the `dotimes` of `every` and `some`: first index with a true (or, for
`every`, false) outcome; `none`: error. -/
def someLoop (pred : List α → Option β) (args : List (List α)) : Nat → Nat → Option (Option β)
  | 0, _ => some none
  | n + 1, i =>
    match nths args i with
    | none => none
    | some xs =>
      match pred xs with
      | some r => some (some r)
      | none => someLoop pred args n (i + 1)

/-- common.l:940-945 `some` of at least one sequence; `pred` returns `none` for NIL. -/
def someFn (pred : List α → Option β) (arg : List α) (more : List (List α)) : Option (Option β) :=
  someLoop pred (arg :: more) arg.length 0

/-- common.l:934-938 `every` of several sequences, or one vector. -/
def everyFn (pred : List α → Bool) (arg : List α) (more : List (List α)) : Option Bool :=
  (someLoop (fun xs => if pred xs then none else some ()) (arg :: more) arg.length 0).map (·.isNone)

/-! ### mapping -/

/-- specials.c:250-256: one element of every list; `none`: E_NOLIST, some list is shorter. -/
def heads : List (List α) → Option (List α × List (List α))
  | [] => some ([], [])
  | [] :: _ => none
  | (x :: l) :: rest => (heads rest).map fun (xs, ls) => (x :: xs, l :: ls)

/-- specials.c:249-262, the loop of `MAPCAR`: the first list decides when to stop. -/
def mapcarLoop (f : List α → β) : List α → List (List α) → Option (List β)
  | [], _ => some []
  | x :: l, more =>
    match heads more with
    | none => none
    | some (xs, more) => (mapcarLoop f l more).map (f (x :: xs) :: ·)

/-- specials.c:232-265 `MAPCAR`. -/
def mapcar (f : List α → β) (l : List α) (more : List (List α)) : Option (List β) := mapcarLoop f l more

/-- specials.c:267-300 `MAPCAN`: the results, here lists, are joined by `NCONC`. -/
def mapcan (f : List α → List β) (l : List α) (more : List (List α)) : Option (List β) :=
  (mapcarLoop f l more).map List.flatten

/-- common.l:448-464 `maplist` of one list. -/
def maplistLoop (f : List α → β) : List α → List β → List β
  | [], result => result
  | x :: arg, result => maplistLoop f arg (f (x :: arg) :: result)

/-- common.l:448-464 `maplist` of one list. -/
def maplist (f : List α → β) (arg : List α) : List β := (maplistLoop f arg []).reverse

/-- common.l:479-481, the loop of `mapcon` of one list. -/
def mapconLoop (f : List α → List β) : List α → List β → List β
  | [], result => result
  | x :: arg, result => mapconLoop f arg (f (x :: arg) ++ result)

/-- common.l:466-482 `mapcon` of one list. -/
def mapcon (f : List α → List β) (arg : List α) : List β := (mapconLoop f arg []).reverse

/-- common.l:517-520 `collect-if`. -/
def collectIfLoop (f : α → Bool) : List α → List α → List α
  | [], r => r
  | s :: seq, r => collectIfLoop f seq (if f s then s :: r else r)

/-- common.l:517-520 `collect-if`. -/
def collectIf (f : α → Bool) (seq : List α) : List α := (collectIfLoop f seq []).reverse

/-- common.l:531-532, the `dotimes` of `transpose-list`; `(nth i x)` is NIL past the end. -/
def transposeLoop (nil : α) (dlist : List (List α)) : Nat → Nat → List (List α) → List (List α)
  | 0, _, r => r
  | n + 1, i, r => transposeLoop nil dlist n (i + 1) (dlist.map (fun x => (x[i]?).getD nil) :: r)

/-- common.l:529-533 `transpose-list`. -/
def transposeList (nil : α) (dlist : List (List α)) : List (List α) :=
  (transposeLoop nil dlist (dlist.headD []).length 0 []).reverse

/-! ### replace -/

/-- common.l:556-558 (list to list), 560-562 (vector to list) and 565-567 (list to vector): `count` times
store `src[j]` into `dest[i]`.  An exhausted list yields `nil`; storing outside `dest` or reading outside
a vector is an error (`none`). -/
def replaceLoop (nil : α) (srcIsList : Bool) (src : List α) : Nat → Nat → Nat → List α → Option (List α)
  | 0, _, _, dest => some dest
  | n + 1, i, j, dest =>
    match src[j]? with
    | none => if srcIsList ∧ i < dest.length then replaceLoop nil srcIsList src n (i + 1) (j + 1) (dest.set i nil) else none
    | some x => if i < dest.length then replaceLoop nil srcIsList src n (i + 1) (j + 1) (dest.set i x) else none

/-- common.l:549-567 `replace` when `dest` or `src` is a list and they share no cells. -/
def replace (nil : α) (srcIsList : Bool) (dest src : List α) (start1 end1 start2 end2 : Nat) : Option (List α) :=
  replaceLoop nil srcIsList src (min (end1 - start1) (end2 - start2)) start1 start2 dest

/-! ### trees -/

/-- Cons trees (eus.h:195-197), for `subst`, `flatten`. -/
inductive Tree (α : Type) where
  | nil
  | atom (a : α)
  | cons (l r : Tree α)
deriving DecidableEq

/-- lists.c:231-240 `subst`; `eq` is the `equal` of predicates.c. -/
def subst (eq : Tree α → Tree α → Bool) (x y : Tree α) : Tree α → Tree α
  | .nil => if eq y .nil then x else .nil
  | .atom a => if eq y (.atom a) then x else .atom a
  | .cons l r => if eq y (.cons l r) then x else .cons (subst eq x y l) (subst eq x y r)

/-- common.l:360-365 `flatten`. -/
def flatten : Tree α → List α → List α
  | .nil, acc => acc
  | .atom a, acc => a :: acc
  | .cons l r, acc => flatten l (flatten r acc)

/-! ### expt -/

/-- common.l:1015-1020, the loop of `expt`; numbers with an exact `*` (any monoid); the fuel is the value of `ix`. -/
def exptLoop {M : Type} [Monoid M] (a : M) : Nat → M → Nat → Nat → M
  | 0, b, _, _ => b
  | n + 1, b, y, ix =>
    if ix > 0 then
      if ix > y then exptLoop a n (b * b) (2 * y) (ix - y)
      else exptLoop a n (b * a) y (ix - 1)
    else b

/-- common.l:1009-1022 `expt` with a non-negative integer exponent. -/
def expt {M : Type} [Monoid M] (a : M) (x : Nat) : M :=
  if x = 0 then 1 else exptLoop a x a 1 (x - 1)

/-! ### property lists -/

/-- The property list of a symbol or propertied object (eus.h `struct propertied_object`): pairs
(attribute . value). -/
abbrev PList (A V : Type) := List (A × V)

variable {A V : Type} [DecidableEq A]

/-- specials.c:1203-1207 `GETPROP` (`get`). -/
def getprop (attr : A) (dflt : V) : PList A V → V
  | [] => dflt
  | p :: l => if p.1 = attr then p.2 else getprop attr dflt l

/-- specials.c:1240-1242: overwrite in place; `none` if there is no such property. -/
def putLoop (attr : A) (val : V) : PList A V → Option (PList A V)
  | [] => none
  | p :: l => if p.1 = attr then some ((p.1, val) :: l) else (putLoop attr val l).map (p :: ·)

/-- specials.c:1235-1246 `putprop`. -/
def putprop (attr : A) (val : V) (l : PList A V) : PList A V :=
  match putLoop attr val l with
  | some l => l
  | none => (attr, val) :: l

/-- object.l:49-53 `:remprop` (`remprop`): `delete` of the pair found by `assq`, by identity. -/
def remprop (attr : A) : PList A V → PList A V
  | [] => []
  | p :: l => if p.1 = attr then l else p :: remprop attr l

/-- object.l:42-46 the message `:put`.  If the attribute is there, the message `:cdr` is sent to the pair;
class `cons` has no such method, nor have its superclasses, and SEND signals E_NOMETHOD (leo.c:283): `none`. -/
def putMessage (attr : A) (val : V) (l : PList A V) : Option (PList A V) :=
  if l.any (fun p => p.1 = attr) then none else some ((attr, val) :: l)

/-- One operation on a property list (specials.c:1248 `PUTPROP`, packsym.l:68 `remprop`). -/
inductive POp (A V : Type) where
  | put (attr : A) (val : V)
  | rem (attr : A)

/-- One operation (specials.c:1248, object.l:49). -/
def pstep (l : PList A V) : POp A V → PList A V
  | .put a v => putprop a v l
  | .rem a => remprop a l

/-- A sequence of operations, from the empty property list (specials.c:1248, object.l:49). -/
def prun (ops : List (POp A V)) : PList A V := ops.foldl pstep []

end Eus.Lst
