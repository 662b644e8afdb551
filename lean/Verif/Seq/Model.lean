set_option autoImplicit false
/-
Sequence functions of lisp/c/sequence.c on lists and vectors, by contents.

* A list or vector is represented by the list of its elements; elements are opaque values `α`.
* `p x` stands for the combined outcome `testresult` of :test, :test-not, :key, :if, :if-not
  (e.g. sequence.c:666-671); it is a pure function here.
* Functions that rewrite the CARs of a list or the slots of a vector in place are modelled by the new
  contents (CDRs are not touched).  `DELETE` on lists, which relinks CDRs, is in `Cons/Model.lean`.
* start, end and count are natural numbers (the code does not check for negative ones).
* `none` is a Lisp error (E_SEQINDEX, E_STARTEND) or, where said, undefined behaviour.
* Vectors are simple vectors of pointers; fill pointers and displaced arrays only where mentioned.
-/
namespace Eus.Seq

variable {α : Type}

/-- sequence.c:21. -/
def MAXSEQ : Nat := 100000000

/-! ### remove -/

/-- sequence.c:661-673, the loop of `UNIREMOVE` over a list: `n = end - start` elements to go,
`count` to remove, the rest of the list, the stack of kept elements. -/
def rmLoop (p : α → Bool) : Nat → Nat → List α → List α → Option (List α × List α)
  | 0, _, seq, stk => some (stk, seq)
  | _ + 1, 0, seq, stk => some (stk, seq)
  | _ + 1, _ + 1, [], _ => none
  | n + 1, c + 1, x :: seq, stk => if p x then rmLoop p n c seq stk else rmLoop p n (c + 1) seq (x :: stk)

/-- sequence.c:641-679 `UNIREMOVE` on a list (`remove` and its variants, common.l): push the first `start`
elements, run the loop, cons the stack onto what is left of the list. -/
def removeList (p : α → Bool) (start stop count : Nat) (l : List α) : Option (List α) :=
  if l.isEmpty then some []
  else (rmLoop p (stop - start) count (l.drop start) (l.take start).reverse).map
    fun (stk, seq) => stk.reverse ++ seq

/-- sequence.c:661-673, the loop over a vector, at index `i`. -/
def vrmLoop (p : α → Bool) (v : List α) : Nat → Nat → Nat → List α → Option (List α)
  | 0, _, _, stk => some stk
  | _ + 1, 0, _, stk => some stk
  | n + 1, c + 1, i, stk =>
    match v[i]? with
    | none => none
    | some x => if p x then vrmLoop p v n c (i + 1) stk else vrmLoop p v n (c + 1) (i + 1) (x :: stk)

/-- sequence.c:641-679 `UNIREMOVE` on a vector: what follows index `end` is appended, whether or not
the loop got as far as `end` (line 678). -/
def removeVec (p : α → Bool) (start stop count : Nat) (v : List α) : Option (List α) :=
  let e := min stop v.length
  (vrmLoop p v (e - start) count start (v.take start).reverse).map
    fun stk => stk.reverse ++ (v.drop e).take MAXSEQ

/-! ### delete on vectors -/

/-- sequence.c:746-769, the loop of `DELETE` over a vector: elements to go, count, index, lastindex,
contents. -/
def vdelLoop (p : α → Bool) : Nat → Nat → Nat → Nat → List α → Option (Nat × List α)
  | 0, _, _, last, v => some (last, v)
  | _ + 1, 0, _, last, v => some (last, v)
  | n + 1, c + 1, i, last, v =>
    match v[i]? with
    | none => none
    | some x =>
      if p x then vdelLoop p n c (i + 1) last v
      else vdelLoop p n (c + 1) (i + 1) (last + 1) (if i ≠ last then v.set last x else v)

/-- sequence.c:723-771 `DELETE` on a vector: the size of the vector becomes `lastindex` (line 770). -/
def deleteVec (p : α → Bool) (start stop count : Nat) (v : List α) : Option (List α) :=
  (vdelLoop p (min stop v.length - start) count start start v).map fun (last, v) => v.take last

/-! ### substitute -/

/-- sequence.c:793-807, the loop of `SUBSTITUTE` over a list. -/
def subLoop (p : α → Bool) (new : α) : Nat → Nat → List α → List α → Option (List α × List α)
  | 0, _, seq, stk => some (stk, seq)
  | _ + 1, 0, seq, stk => some (stk, seq)
  | _ + 1, _ + 1, [], _ => none
  | n + 1, c + 1, x :: seq, stk =>
    if p x then subLoop p new n c seq (new :: stk) else subLoop p new n (c + 1) seq (x :: stk)

/-- sequence.c:773-813 `SUBSTITUTE` on a list. -/
def substituteList (p : α → Bool) (new : α) (start stop count : Nat) (l : List α) : Option (List α) :=
  if l.isEmpty then some []
  else (subLoop p new (stop - start) count (l.drop start) (l.take start).reverse).map
    fun (stk, seq) => stk.reverse ++ seq

/-- sequence.c:793-807 over a vector. -/
def vsubLoop (p : α → Bool) (new : α) (v : List α) : Nat → Nat → Nat → List α → Option (List α)
  | 0, _, _, stk => some stk
  | _ + 1, 0, _, stk => some stk
  | n + 1, c + 1, i, stk =>
    match v[i]? with
    | none => none
    | some x =>
      if p x then vsubLoop p new v n c (i + 1) (new :: stk)
      else vsubLoop p new v n (c + 1) (i + 1) (x :: stk)

/-- sequence.c:773-813 `SUBSTITUTE` on a vector. -/
def substituteVec (p : α → Bool) (new : α) (start stop count : Nat) (v : List α) : Option (List α) :=
  let e := min stop v.length
  (vsubLoop p new v (e - start) count start (v.take start).reverse).map
    fun stk => stk.reverse ++ (v.drop e).take MAXSEQ

/-- sequence.c:836-852, the loop of `NSUBSTITUTE` over a list: new contents of the rest. -/
def nsubLoop (p : α → Bool) (new : α) : Nat → Nat → List α → Option (List α)
  | 0, _, seq => some seq
  | _ + 1, 0, seq => some seq
  | _ + 1, _ + 1, [] => none
  | n + 1, c + 1, x :: seq =>
    if p x then (nsubLoop p new n c seq).map (new :: ·) else (nsubLoop p new n (c + 1) seq).map (x :: ·)

/-- sequence.c:815-853 `NSUBSTITUTE` on a list; the skip of line 835 is an error beyond the end. -/
def nsubstituteList (p : α → Bool) (new : α) (start stop count : Nat) (l : List α) : Option (List α) :=
  if l.isEmpty then some []
  else if start > l.length then none
  else (nsubLoop p new (stop - start) count (l.drop start)).map (l.take start ++ ·)

/-- sequence.c:836-852 over a vector. -/
def vnsubLoop (p : α → Bool) (new : α) : Nat → Nat → Nat → List α → Option (List α)
  | 0, _, _, v => some v
  | _ + 1, 0, _, v => some v
  | n + 1, c + 1, i, v =>
    match v[i]? with
    | none => none
    | some x =>
      if p x then vnsubLoop p new n c (i + 1) (v.set i new) else vnsubLoop p new n (c + 1) (i + 1) v

/-- sequence.c:815-853 `NSUBSTITUTE` on a vector. -/
def nsubstituteVec (p : α → Bool) (new : α) (start stop count : Nat) (v : List α) : Option (List α) :=
  vnsubLoop p new (min stop v.length - start) count start v

/-! ### position, find, count -/

/-- sequence.c:541-556, the loop of `POSITION` over a list; the result `none` is NIL. -/
def posLoop (p : α → Bool) : Nat → Nat → Nat → List α → Option Nat
  | 0, _, _, _ => none
  | _ + 1, _, _, [] => none
  | n + 1, c, i, x :: seq =>
    if p x then (if c - 1 = 0 then some i else posLoop p n (c - 1) (i + 1) seq)
    else posLoop p n c (i + 1) seq

/-- sequence.c:520-557 `POSITION` on a list (with its extra argument `count`, 1 by default). -/
def positionList (p : α → Bool) (start stop count : Nat) (l : List α) : Option Nat :=
  posLoop p (stop - start) count start (l.drop start)

/-- sequence.c:541-556 over a vector. -/
def vposLoop (p : α → Bool) (v : List α) : Nat → Nat → Nat → Option Nat
  | 0, _, _ => none
  | n + 1, c, i =>
    match v[i]? with
    | none => none
    | some x =>
      if p x then (if c - 1 = 0 then some i else vposLoop p v n (c - 1) (i + 1))
      else vposLoop p v n c (i + 1)

/-- sequence.c:520-557 `POSITION` on a vector. -/
def positionVec (p : α → Bool) (start stop count : Nat) (v : List α) : Option Nat :=
  vposLoop p v (min stop v.length - start) count start

/-- sequence.c:581-597, the loop of `FIND` over a list. -/
def findLoop (p : α → Bool) : Nat → List α → Option α
  | 0, _ => none
  | _ + 1, [] => none
  | n + 1, x :: seq => if p x then some x else findLoop p n seq

/-- sequence.c:559-598 `FIND` on a list. -/
def findList (p : α → Bool) (start stop : Nat) (l : List α) : Option α :=
  findLoop p (stop - start) (l.drop start)

/-- sequence.c:581-597 over a vector. -/
def vfindLoop (p : α → Bool) (v : List α) : Nat → Nat → Option α
  | 0, _ => none
  | n + 1, i =>
    match v[i]? with
    | none => none
    | some x => if p x then some x else vfindLoop p v n (i + 1)

/-- sequence.c:559-598 `FIND` on a vector. -/
def findVec (p : α → Bool) (start stop : Nat) (v : List α) : Option α :=
  vfindLoop p v (min stop v.length - start) start

/-- sequence.c:623-638, the loop of `COUNT` over a list. -/
def countLoop (p : α → Bool) : Nat → Nat → List α → Nat
  | 0, i, _ => i
  | _ + 1, i, [] => i
  | n + 1, i, x :: seq => countLoop p n (if p x then i + 1 else i) seq

/-- sequence.c:600-639 `COUNT` on a list: `none` is NIL, returned when nothing is left after skipping
`start` elements of a non-empty list (line 615). -/
def countList (p : α → Bool) (start stop : Nat) (l : List α) : Option Nat :=
  if l.isEmpty then some 0
  else if (l.drop start).isEmpty then none
  else some (countLoop p (stop - start) 0 (l.drop start))

/-- sequence.c:623-638 over a vector. -/
def vcountLoop (p : α → Bool) (v : List α) : Nat → Nat → Nat → Nat
  | 0, i, _ => i
  | n + 1, i, k =>
    match v[k]? with
    | none => i
    | some x => vcountLoop p v n (if p x then i + 1 else i) (k + 1)

/-- sequence.c:600-639 `COUNT` on a vector. -/
def countVec (p : α → Bool) (start stop : Nat) (v : List α) : Nat :=
  vcountLoop p v (min stop v.length - start) 0 start

/-! ### reverse -/

/-- sequence.c:226-228 `REVERSE` of a list. -/
def revLoop : List α → List α → List α
  | [], r => r
  | x :: a, r => revLoop a (x :: r)

/-- sequence.c:217-247 `REVERSE` of a list. -/
def reverseList (l : List α) : List α := revLoop l []

/-- sequence.c:245: `for (i=0; i<k; s++,i++) r[k-i-1]=a[s]`; `none`: access outside a vector. -/
def vrevLoop (a : List α) (k : Nat) : Nat → Nat → Nat → List α → Option (List α)
  | 0, _, _, r => some r
  | n + 1, i, s, r =>
    match a[s]? with
    | none => none
    | some x => if k - i - 1 < r.length then vrevLoop a k n (i + 1) (s + 1) (r.set (k - i - 1) x) else none

/-- sequence.c:217-247 `REVERSE` of a vector (`s = 0`, `k` its size) or of a one-dimensional array
displaced by `s` into the entity `a`; `nil` fills the new vector. -/
def reverseVec (nil : α) (s k : Nat) (a : List α) : Option (List α) :=
  vrevLoop a k k 0 s (List.replicate k nil)

/-- sequence.c:258-263 `NREVERSE` of a list: push all CARs, then pop them back into the cells. -/
def nreverseList (l : List α) : List α :=
  let stk := l.foldl (fun stk x => x :: stk) []
  -- `while (i>0) { ccar(r)=vpop(); r=ccdr(r); i--;}`
  (l.foldl (fun (acc : List α × List α) _ =>
    match acc.2 with
    | [] => acc
    | y :: stk => (acc.1 ++ [y], stk)) ([], stk)).1

/-- sequence.c:298-299: `for(i=0; i<kk; i++, s++) { swap vp[s], vp[k-i-1] }`. -/
def swapLoop (k : Nat) : Nat → Nat → Nat → List α → Option (List α)
  | 0, _, _, v => some v
  | n + 1, i, s, v =>
    match v[s]?, v[k - i - 1]? with
    | some x, some y => swapLoop k n (i + 1) (s + 1) ((v.set s y).set (k - i - 1) x)
    | _, _ => none

/-- sequence.c:249-301 `NREVERSE` of a vector (`s = 0`) or displaced array (offset `s`, dimension
`k`): new contents of the entity. -/
def nreverseVec (s k : Nat) (v : List α) : Option (List α) := swapLoop k (k / 2) 0 s v

/-! ### subseq, concatenate -/

/-- sequence.c:117-140 `SUBSEQ` of a list.  `none`: E_STARTEND. -/
def subseqList (start : Nat) (stop : Option Nat) (l : List α) : Option (List α) :=
  if (match stop with | some e => decide (e < start) | none => false) then none
  else if l.isEmpty then some []
  else
    let a := l.drop start
    if a.isEmpty then none
    else match stop with
      | some e => some (a.take (e - start))
      | none => some a

/-- sequence.c:145-169 `SUBSEQ` of a vector; `none`: E_STARTEND, or a vector of negative size. -/
def subseqVec (start : Nat) (stop : Option Nat) (v : List α) : Option (List α) :=
  if (match stop with | some e => decide (e < start) | none => false) then none
  else
    let e := match stop with | some e => min e v.length | none => v.length
    if e < start then none else some ((v.drop start).take (e - start))

/-- sequence.c:303-345 `pushsequence(a,offset,count)` on the contents: what is pushed. -/
def pushseq (a : List α) (offset count : Nat) : List α := (a.drop offset).take count

/-- sequence.c:390-398 `CONCATENATE`: push all elements of all arguments, make a sequence of them. -/
def concatenate (args : List (List α)) : List α :=
  args.foldl (fun stk a => stk ++ pushseq a 0 MAXSEQ) []

/-! ### fill, map -/

/-- sequence.c:430-436 `FILL` on a list: `i` elements still to skip, `n = end - start`. -/
def fillLoop (item : α) : Nat → Nat → List α → List α
  | _, _, [] => []
  | i + 1, n, x :: l => x :: fillLoop item i n l
  | 0, 0, l => l
  | 0, n + 1, _ :: l => item :: fillLoop item 0 n l

/-- sequence.c:417-436 `FILL` on a list. -/
def fillList (item : α) (start stop : Nat) (l : List α) : List α := fillLoop item start (stop - start) l

/-- sequence.c:451 `while (start<end) v[start++]=item`, after line 437 `end=min(end,size)`. -/
def vfillLoop (item : α) : Nat → Nat → List α → List α
  | 0, _, v => v
  | n + 1, i, v => vfillLoop item n (i + 1) (v.set i item)

/-- sequence.c:437-451 `FILL` on a vector of pointers. -/
def fillVec (item : α) (start stop : Nat) (v : List α) : List α :=
  vfillLoop item (min stop v.length - start) start v

/-- A sequence argument of `MAP` (sequence.c:497-511): a list or a vector. -/
inductive Arg (α : Type) where
  | lst (l : List α)
  | vec (v : List α)

/-- The elements of a sequence argument of `MAP` (sequence.c:499-508). -/
def Arg.elems : Arg α → List α
  | .lst l => l
  | .vec v => v

/-- sequence.c:497-511: collect one argument from each sequence (`r` is `rcount`); lists lose their
head.  `none`: some sequence is exhausted. -/
def collect (r : Nat) : List (Arg α) → Option (List α × List (Arg α))
  | [] => some ([], [])
  | .lst [] :: _ => none
  | .lst (x :: l) :: rest => (collect r rest).map fun (xs, as) => (x :: xs, .lst l :: as)
  | .vec v :: rest =>
    match v[r]? with
    | none => none
    | some x => (collect r rest).map fun (xs, as) => (x :: xs, .vec v :: as)

/-- sequence.c:494-515, the loop of `MAP`; the first argument bounds the number of rounds (one more
than the length of the first sequence is enough, see `Props`). -/
def mapLoop {β : Type} (f : List α → β) : Nat → Nat → List (Arg α) → List β
  | 0, _, _ => []
  | n + 1, r, args =>
    match collect r args with
    | none => []
    | some (xs, args) => f xs :: mapLoop f n (r + 1) args

/-- sequence.c:485-518 `MAP` on at least one sequence: the elements of the result. -/
def MAP {β : Type} (f : List α → β) (a : Arg α) (rest : List (Arg α)) : List β :=
  mapLoop f (a.elems.length + 1) 0 (a :: rest)

/-! ### remove-duplicates -/

/-- sequence.c:704-714, the inner loop: does a later element within the range match? -/
def dupInner (test : α → α → Bool) (x : α) : Nat → List α → Bool
  | 0, _ => false
  | _ + 1, [] => false
  | n + 1, y :: l => if test x y then true else dupInner test x n l

/-- sequence.c:696-715, the outer loop over a list (`n = end - start`). -/
def dupLoop (test : α → α → Bool) : Nat → List α → List α → List α × List α
  | 0, seq, stk => (stk, seq)
  | _ + 1, [], stk => (stk, [])
  | n + 1, x :: seq, stk =>
    if dupInner test x n seq then dupLoop test n seq stk else dupLoop test n seq (x :: stk)

/-- sequence.c:681-718 `REMOVE_DUPLICATES` on a list. -/
def removeDuplicatesList (test : α → α → Bool) (start stop : Nat) (l : List α) : List α :=
  let (stk, seq) := dupLoop test (stop - start) (l.drop start) (l.take start).reverse
  stk.reverse ++ seq

/-- sequence.c:704-714 over a vector, from index `i`. -/
def vdupInner (test : α → α → Bool) (x : α) (v : List α) : Nat → Nat → Bool
  | 0, _ => false
  | n + 1, i =>
    match v[i]? with
    | none => false
    | some y => if test x y then true else vdupInner test x v n (i + 1)

/-- sequence.c:696-715 over a vector, at index `i`. -/
def vdupLoop (test : α → α → Bool) (v : List α) : Nat → Nat → List α → List α
  | 0, _, stk => stk
  | n + 1, i, stk =>
    match v[i]? with
    | none => stk
    | some x =>
      if vdupInner test x v n (i + 1) then vdupLoop test v n (i + 1) stk
      else vdupLoop test v n (i + 1) (x :: stk)

/-- sequence.c:681-721 `REMOVE_DUPLICATES` on a vector. -/
def removeDuplicatesVec (test : α → α → Bool) (start stop : Nat) (v : List α) : List α :=
  let e := min stop v.length
  (vdupLoop test v (e - start) start (v.take start).reverse).reverse ++ (v.drop e).take MAXSEQ

/-- common.l:615-619 `unique`. -/
def unique [BEq α] : List α → List α
  | [] => []
  | [x] => [x]
  | x :: y :: l => if (y :: l).elem x then unique (y :: l) else x :: unique (y :: l)

end Eus.Seq
