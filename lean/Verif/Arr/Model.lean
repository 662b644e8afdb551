import Verif.Bits.Model
set_option autoImplicit false
/-
Vectors, arrays and bit vectors: lisp/c/vectorarray.c, parts of lisp/c/sequence.c and lisp/l/array.l.

* A vector of pointers is the list of its elements.
* C `int` is 32 bits; converting a Lisp integer to `int` keeps its low 32 bits (`int32`), arithmetic
  on `int` outside the range is undefined (`ub`).
* Bit vectors are lists of 64-bit words, bit i in word i/64 at i%64 (64-bit configuration).
-/
namespace Eus.Arr
open Eus.Num

/-- Outcome: a value, a Lisp error (as raised by `error()` in vectorarray.c), undefined behaviour. -/
inductive Out (α : Type) where
  | ok (a : α)
  | err
  | ub
deriving DecidableEq, Repr

variable {α : Type}

/-- Conversion of `eusinteger_t` to `int`, as in `i1=ckintval(p1)` (vectorarray.c:161). -/
def int32 (i : Int) : Int := i.bmod (2 ^ 32)

/-- A value that an `int` can hold (vectorarray.c:154). -/
def fits (i : Int) : Bool := -2 ^ 31 ≤ i ∧ i < 2 ^ 31

/-! ### arrays -/

/-- eus.h `struct arrayheader`: entity (a vector of pointers), offset, dimensions (rank = their number). -/
structure Ary (α : Type) where
  entity : List α
  offset : Int
  dims : List Int

/-- vectorarray.c:44 and 67-68 `vref` on a vector of pointers; `n` is an `int`. -/
def vref (v : List α) (n : Int) : Out α :=
  if n < 0 ∨ (v.length : Int) ≤ n then .err
  else match v[n.toNat]? with
    | some x => .ok x
    | none => .err

/-- vectorarray.c:97 and 122-124 `vset` on a vector of pointers. -/
def vset (v : List α) (n : Int) (x : α) : Out (List α) :=
  if n < 0 ∨ (v.length : Int) ≤ n then .err else .ok (v.set n.toNat x)

/-- vectorarray.c:158-164, the loop of `arrayindex`: dimensions, subscripts, `index`. -/
def indexLoop : List Int → List Int → Int → Out Int
  | d :: ds, i :: is, index =>
    if int32 i ≥ int32 d then .err
    else if fits (index * int32 d) && fits (index * int32 d + int32 i) then
      indexLoop ds is (index * int32 d + int32 i)
    else .ub
  | _, _, index => .ok index

/-- vectorarray.c:150-165 `arrayindex`; the result is converted to `int`. -/
def arrayindex (a : Ary α) (is : List Int) : Out Int :=
  if is.length ≠ a.dims.length then .err
  else match indexLoop a.dims is 0 with
    | .ok index => .ok (int32 (index + a.offset))
    | .err => .err
    | .ub => .ub

/-- vectorarray.c:167-183 `AREF` of an array. -/
def AREF (a : Ary α) (is : List Int) : Out α :=
  match arrayindex a is with
  | .ok i => vref a.entity i
  | .err => .err
  | .ub => .ub

/-- vectorarray.c:185-195 `ASET` of an array. -/
def ASET (a : Ary α) (is : List Int) (x : α) : Out (Ary α) :=
  match arrayindex a is with
  | .ok i => match vset a.entity i x with
    | .ok v => .ok { a with entity := v }
    | .err => .err
    | .ub => .ub
  | .err => .err
  | .ub => .ub

/-- vectorarray.c:174,178 `AREF` of a vector. -/
def AREFvec (v : List α) (i : Int) : Out α := vref v (int32 i)

/-- vectorarray.c:193 `ASET` of a vector. -/
def ASETvec (v : List α) (i : Int) (x : α) : Out (List α) := vset v (int32 i) x

/-- Nested sequences with the shape of an array (the argument :initial-contents, array.l:64-80):
`Nest α n` is nested `n` deep. -/
def Nest (α : Type) : Nat → Type
  | 0 => α
  | n + 1 => List (Nest α n)

/-- array.l:73-79, innermost dimension: store the elements of `seq` from `offset`; an error is signalled
after more than `major` elements. -/
def fillRow (major : Nat) : Nat → List α → Nat → List α → Option (List α)
  | _, [], _, vec => some vec
  | inc, x :: seq, offset, vec =>
    if offset < vec.length then
      if inc + 1 > major then none else fillRow major (inc + 1) seq (offset + 1) (vec.set offset x)
    else none

/-- array.l:70-72, the loop over the `major` subarrays, `increments` apart. -/
def fillRows {β : Type} (fill : β → Nat → List α → Option (List α)) (increments : Nat) :
    Nat → List β → Nat → List α → Option (List α)
  | 0, _, _, vec => some vec
  | _ + 1, [], _, _ => none
  | n + 1, s :: seq, offset, vec =>
    match fill s offset vec with
    | none => none
    | some vec => fillRows fill increments n seq (offset + increments) vec

/-- array.l:64-80 `fill-initial-contents` for the dimensions `d :: ds`. -/
def fillInitial : (ds : List Nat) → Nat → Nest α (ds.length + 1) → Nat → List α → Option (List α)
  | [], d, seq, offset, vec => fillRow d 0 seq offset vec
  | d' :: ds, d, seq, offset, vec =>
    fillRows (fillInitial ds d') ((d' :: ds).foldl (· * ·) 1) d seq offset vec

/-! ### typed vectors -/

/-- vectorarray.c:114-116 (`coerceintval`, sequence.c:55-61, of an integer): store into an integer-vector. -/
def ivset (v : List Word) (n : Int) (x : Num) : Out (List Word) :=
  if n < 0 ∨ (v.length : Int) ≤ n then .err else .ok (v.set n.toNat (bigintval x))

/-- vectorarray.c:50: read from an integer-vector. -/
def ivref (v : List Word) (n : Int) : Out Num :=
  match vref v n with
  | .ok x => .ok (mkbigint x)
  | .err => .err
  | .ub => .ub

/-- vectorarray.c:112-113: store into a string. -/
def cvset (v : List (BitVec 8)) (n : Int) (x : Num) : Out (List (BitVec 8)) :=
  if n < 0 ∨ (v.length : Int) ≤ n then .err
  else match ckintval x with
    | some w => .ok (v.set n.toNat (w.setWidth 8))
    | none => .err

/-- vectorarray.c:47-48: read from a string. -/
def cvref (v : List (BitVec 8)) (n : Int) : Out Num :=
  match vref v n with
  | .ok x => .ok (makeint (x.setWidth 64))
  | .err => .err
  | .ub => .ub

/-! ### bit vectors -/

/-- A bit vector: makes.c:425 allocates (size+63)/64 words. -/
structure BV where
  words : List Word
  size : Nat
deriving DecidableEq, Repr

/-- makes.c:417-436 `makevector` for bits. -/
def BV.make (size : Nat) : BV := ⟨List.replicate ((size + 63) / 64) 0, size⟩

/-- vectorarray.c:289-294 `BIT` (also 58-60 `vref`). -/
def BIT (v : BV) (n : Nat) : Out Bool :=
  if v.size ≤ n then .err
  else .ok (v.words.getD (n / 64) 0 &&& (1#64 <<< (n % 64)) ≠ 0)

/-- vectorarray.c:310-317 `SETBIT`. -/
def SETBIT (v : BV) (n : Nat) (val : Word) : Out BV :=
  if v.size ≤ n then .err
  else
    let w := v.words.getD (n / 64) 0
    let w := if val &&& 1 ≠ 0 then w ||| (1#64 <<< (n % 64)) else w &&& ~~~(1#64 <<< (n % 64))
    .ok { v with words := v.words.set (n / 64) w }

/-- Conversion of a word to `int` and back to `eusinteger_t` (the variables of vectorarray.c:93 are `int`). -/
def viaInt (w : Word) : Word := (w.setWidth 32).signExtend 64

/-- vectorarray.c:100-104 `vset` on a bit vector: `x` and `y` are variables of type `int`. -/
def vsetBit (v : BV) (n : Nat) (val : Word) : Out BV :=
  if v.size ≤ n then .err
  else
    let x := viaInt (1#64 <<< (n % 64))
    let y := viaInt ((val &&& 1#64) <<< (n % 64))
    .ok { v with words := v.words.set (n / 64) ((v.words.getD (n / 64) 0 &&& ~~~x) ||| y) }

/-- sequence.c:96-98 `fastvset` on a bit vector (no bounds check). -/
def fastvset (v : BV) (n : Nat) (val : Word) : BV :=
  let w := v.words.getD (n / 64) 0
  let w := if val &&& 1 ≠ 0 then w ||| (1#64 <<< (n % 64)) else w &&& ~~~(1#64 <<< (n % 64))
  { v with words := v.words.set (n / 64) w }

/-- vectorarray.c:327-344 `BITAND` and, with other word operations, `BITIOR` 346, `BITXOR` 365, `BITEQV` 384,
`BITNAND` 403, `BITNOR` 422. -/
def bitop (f : Word → Word → Word) (a b : BV) : Out BV :=
  if a.size ≠ b.size then .err
  else .ok ⟨(List.range ((a.size + 63) / 64)).map fun i => f (a.words.getD i 0) (b.words.getD i 0), a.size⟩

/-- vectorarray.c:327-344. -/
def BITAND := bitop fun x y => x &&& y
/-- vectorarray.c:346-363. -/
def BITIOR := bitop fun x y => x ||| y
/-- vectorarray.c:365-382. -/
def BITXOR := bitop fun x y => x ^^^ y
/-- vectorarray.c:384-401. -/
def BITEQV := bitop fun x y => ~~~(x ^^^ y)
/-- vectorarray.c:403-420. -/
def BITNAND := bitop fun x y => ~~~(x &&& y)
/-- vectorarray.c:422-439. -/
def BITNOR := bitop fun x y => ~~~(x ||| y)
/-- vectorarray.c:441-457. -/
def BITNOT (a : BV) : BV := ⟨(List.range ((a.size + 63) / 64)).map fun i => ~~~(a.words.getD i 0), a.size⟩

/-- sequence.c:459-460: bit by bit to the next word boundary (at most `n` bits). -/
def fillHead (item : Word) (stop : Nat) : Nat → Nat → BV → Nat × BV
  | 0, start, v => (start, v)
  | n + 1, start, v =>
    if start % 64 ≠ 0 ∧ start < stop then fillHead item stop n (start + 1) (fastvset v start item)
    else (start, v)

/-- sequence.c:463-464: whole words. -/
def fillWords (val : Word) : Nat → Nat → BV → BV
  | 0, _, v => v
  | n + 1, k, v => fillWords val n (k + 1) { v with words := v.words.set k val }

/-- sequence.c:475: bit by bit to the end. -/
def fillTail (item : Word) : Nat → Nat → BV → BV
  | 0, _, v => v
  | n + 1, start, v => fillTail item n (start + 1) (fastvset v start item)

/-- sequence.c:417-476 `FILL` on a bit vector, `item` as a word. -/
def fillBits (v : BV) (item : Word) (start stop : Nat) : BV :=
  let stop := min stop v.size
  let (start, v) := fillHead item stop (stop - start) start v
  let count := (stop - start) / 64
  let v := fillWords (if item = 0 then 0 else ~~~0) count (start / 64) v
  let start := start + count * 64
  fillTail item (stop - start) start v

/-! ### fill pointers -/

/-- A one-dimensional array with fill pointer (eus.h `struct arrayheader`): entity, offset, dimension 0, fill pointer. -/
structure FArr (α : Type) where
  entity : List α
  offset : Nat
  dim : Nat
  fp : Nat

/-- array.l:82-121 `make-array` with one dimension given as a list and :fill-pointer `fp` (at most `dim`): the
entity has at least one element. -/
def FArr.make (nil : α) (dim fp : Nat) : FArr α := ⟨List.replicate (max 1 dim) nil, 0, dim, fp⟩

/-- vectorarray.c:225-238 `VECTORPUSH`; `none`: E_ARRAYINDEX. -/
def FArr.push (a : FArr α) (x : α) : Option (FArr α) :=
  if a.fp + a.offset < a.entity.length then
    some { a with entity := a.entity.set (a.fp + a.offset) x, fp := a.fp + 1 }
  else none

/-- vectorarray.c:240-265 `VECTOREXPUSH`. -/
def FArr.pushExtend (nil : α) (a : FArr α) (x : α) : Option (FArr α) :=
  let a := if a.fp ≥ a.entity.length then
      { a with entity := a.entity ++ List.replicate (a.fp * 2 - a.entity.length) nil, dim := a.fp * 2 }
    else a
  if a.fp < a.entity.length then some { a with entity := a.entity.set a.fp x, fp := a.fp + 1 } else none

/-- vectorarray.c:207-223 `VECTORPOP`; `none`: E_ARRAYINDEX. -/
def FArr.pop (a : FArr α) : Option (α × FArr α) :=
  if a.fp = 0 then none
  else (a.entity[a.fp - 1 + a.offset]?).map fun r => (r, { a with fp := a.fp - 1 })

/-- vectorarray.c:150-165 with 44: `aref` of such an array. -/
def FArr.aref (a : FArr α) (i : Nat) : Option α :=
  if i ≥ a.dim then none else a.entity[i + a.offset]?

/-- A call on an array with fill pointer (vectorarray.c:207-265). -/
inductive FOp (α : Type) where
  | push (x : α)
  | pushExtend (x : α)
  | pop

/-- vectorarray.c:207-265: one call; an error leaves the array as it is. -/
def fstep (nil : α) (a : FArr α) : FOp α → FArr α
  | .push x => (a.push x).getD a
  | .pushExtend x => (a.pushExtend nil x).getD a
  | .pop => (a.pop.map (·.2)).getD a

/-! ### vector replace -/

/-- sequence.c:858-942 `VECREPLACE` of simple vectors: `same` says that source and destination are the same
vector; equal element types, so that `memcpy` is used (line 907), which is undefined for overlapping regions.
There are no bounds checks; a range with end before start is also counted as undefined. -/
def vecReplace (same : Bool) (dest src : List α) (ds de ss se : Nat) : Out (List α) :=
  let count := min (de - ds) (se - ss)
  if de < ds ∨ se < ss then .ub
  else if ds + count > dest.length ∨ ss + count > src.length then .ub
  else if same ∧ 0 < count ∧ ds < ss + count ∧ ss < ds + count then .ub
  else .ok (dest.take ds ++ (src.drop ss).take count ++ dest.drop (ds + count))

/-- sequence.c:917-928, the loop of the general case: pop the elements from the stack, storing downwards from
index `de`; `stk` has the last element first, already coerced. -/
def storeDown : List α → Nat → List α → List α
  | [], _, dest => dest
  | x :: stk, de, dest => storeDown stk (de - 1) (dest.set (de - 1) x)

/-- sequence.c:910-942 `VECREPLACE` of vectors of different element types, `co` being the coercion. -/
def vecReplaceGeneral {β : Type} (co : α → β) (dest : List β) (src : List α) (ds de ss se : Nat) : Out (List β) :=
  let count := min (de - ds) (se - ss)
  if de < ds ∨ se < ss then .ub
  else if ds + count > dest.length ∨ ss + count > src.length then .ub
  else .ok (storeDown (((src.drop ss).take count).map co).reverse (ds + count) dest)

end Eus.Arr
