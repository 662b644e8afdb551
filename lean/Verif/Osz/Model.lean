set_option autoImplicit false
/-
`sys:object-size` (lisp/c/sysfunc.c:248-313): the number of objects, the words they use and the words
of their memory cells, for an object and everything it refers to.
Simplifications: the heap is finite, objects are numbers below its size, and what is in the slots is a
number that is not an object (integers, floats, the unbound marker) or an object.  The recursion in C
is limited by the C stack; here it is not.  The lock and other threads are not modelled.
-/
namespace Eus.Osz

/-- What a slot holds. -/
inductive Ref where
  | imm
  | obj (i : Nat)
deriving DecidableEq, Repr

/-- The body of an object by its element type; `n` is the number of elements. -/
inductive Body where
  | fixed (slots : List Ref)
  | ptrvec (elts : List Ref)
  | bits (n : Nat)
  | bytes (n : Nat)
  | words (n : Nat)
  | foreign (n : Nat)
deriving DecidableEq, Repr

structure Obj where
  body : Body
  sym : Bool
  /-- `buddysize[bix]`: the words of the memory cell. -/
  cell : Nat
deriving DecidableEq, Repr

structure Heap where
  size : Nat
  obj : Nat → Obj

/-- The marks and the three counters. -/
structure St where
  mark : Nat → Bool
  count : Nat
  words : Nat
  cells : Nat

/-- sysfunc.c:259-270: what is added to `object_size`. -/
def words : Body → Nat
  | .fixed l => l.length
  | .ptrvec l => 1 + l.length
  | .bits n => 1 + (n + 64 - 1) / 64
  | .bytes n => 1 + (n + 8) / 8
  | .words n => 1 + n
  | .foreign _ => 0

/-- The slots that are followed (260-262, 266-268). -/
def refs : Body → List Ref
  | .fixed l => l
  | .ptrvec l => l
  | _ => []

/-- `p_mark_on`, `p_mark_off`. -/
def setMark (m : Nat → Bool) (i : Nat) (b : Bool) : Nat → Bool := fun j => if j = i then b else m j

mutual
/-- sysfunc.c:250-270 `objsize1`; `none` when the recursion is deeper than the first argument. -/
def objsize1 (H : Heap) (sym : Bool) : Nat → Ref → St → Option St
  | 0, _, _ => none
  | _ + 1, .imm, s => some s
  | n + 1, .obj i, s =>
    if (!sym && (H.obj i).sym) || s.mark i then some s
    else
      objsize1s H sym n (refs (H.obj i).body)
        { mark := setMark s.mark i true
          count := s.count + 1
          words := s.words + words (H.obj i).body
          cells := s.cells + (H.obj i).cell }
/-- The loop over the slots. -/
def objsize1s (H : Heap) (sym : Bool) : Nat → List Ref → St → Option St
  | _, [], s => some s
  | n, r :: l, s =>
    match objsize1 H sym n r s with
    | some s' => objsize1s H sym n l s'
    | none => none
end

mutual
/-- sysfunc.c:272-288 `objsize2`: the marks are taken away. -/
def objsize2 (H : Heap) (sym : Bool) : Nat → Ref → (Nat → Bool) → Option (Nat → Bool)
  | 0, _, _ => none
  | _ + 1, .imm, m => some m
  | n + 1, .obj i, m =>
    if (!sym && (H.obj i).sym) || !m i then some m
    else objsize2s H sym n (refs (H.obj i).body) (setMark m i false)
/-- The loop over the slots. -/
def objsize2s (H : Heap) (sym : Bool) : Nat → List Ref → (Nat → Bool) → Option (Nat → Bool)
  | _, [], m => some m
  | n, r :: l, m =>
    match objsize2 H sym n r m with
    | some m' => objsize2s H sym n l m'
    | none => none
end

/-- sysfunc.c:290-311 `OBJSIZE`: the list of the three numbers, and the marks after it.  `depth` bounds
the recursion. -/
def objectSize (H : Heap) (sym : Bool) (depth : Nat) (a : Ref) (m : Nat → Bool) :
    Option ((Nat × Nat × Nat) × (Nat → Bool)) :=
  match objsize1 H sym depth a ⟨m, 0, 0, 0⟩ with
  | none => none
  | some s =>
    match objsize2 H sym depth a s.mark with
    | none => none
    | some m' => some ((s.count, s.words, s.cells), m')

end Eus.Osz
