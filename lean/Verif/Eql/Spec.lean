import Verif.Eql.Model
set_option autoImplicit false
/-
What an object looks like, without regard to the identity of its parts: a finite tree.
-/
namespace Eus.Eql

/-- A finite tree of objects. -/
inductive Tree where
  | int (z : Int)
  | flt (bits : Word)
  | sym (a : Nat)
  /-- an object with its class and slots: a cons, a ratio, an instance -/
  | obj (cls : Nat) (slots : List Tree)
  /-- a vector of objects -/
  | vec (cls : Nat) (elems : List Tree)
  /-- a string, bit vector, integer vector or float vector, with its element values -/
  | data (cls : Nat) (e : Elm) (elems : List Nat)

/-- Elements of the given type: how many values each has, and how many make a word. -/
def base : Elm → Nat × Nat
  | .bit => (2, 64)
  | .char | .byte => (256, 8)
  | _ => (2 ^ 64, 1)

/-- The value of element `i` of a packed vector. -/
def elem (o : Obj) (i : Nat) : Nat :=
  (o.words.getD (i / (base o.elm).2) 0).toNat / (base o.elm).1 ^ (i % (base o.elm).2) % (base o.elm).1

/-- The tree of `v`; `none` when it is deeper than `n`. -/
def tree (E : Env) (H : Heap) : Nat → Val → Option Tree
  | 0, _ => none
  | _ + 1, .int z => some (.int z)
  | _ + 1, .flt b => some (.flt b)
  | n + 1, .ptr a =>
    let X := H a
    if E.issym X.cix then some (.sym a)
    else match X.elm with
      | .fixed => (X.slots.mapM (tree E H n)).map (.obj X.cix)
      | .pointer => (X.slots.mapM (tree E H n)).map (.vec X.cix)
      | e => some (.data X.cix e ((List.range X.size).map (elem X)))

/-- `v` is a finite object, with tree `t`. -/
def IsTree (E : Env) (H : Heap) (v : Val) (t : Tree) : Prop := ∃ n, tree E H n v = some t

/-- Objects have the slots and words their class and size call for. -/
structure WF (E : Env) (H : Heap) : Prop where
  fixed : ∀ a, (H a).elm = .fixed → (H a).slots.length = E.objsize (H a).cix
  pointer : ∀ a, (H a).elm = .pointer → (H a).slots.length = (H a).size
  words : ∀ a, nwords (H a).elm (H a).size ≤ (H a).words.length ∨ (H a).elm = .fixed ∨ (H a).elm = .pointer
  cons : ∀ a, E.islist (H a).cix = true → (H a).elm = .fixed ∧ 2 ≤ (H a).slots.length
  disj : ∀ a, E.islist (H a).cix = true → ¬ E.issym (H a).cix = true
  str : ∀ a, E.isstr (H a).cix = true → (H a).elm = .char

/-- The unused part of the last word of packed vectors is zero. -/
def Clean (H : Heap) : Prop :=
  ∀ a i, (H a).size ≤ i → i < (base (H a).elm).2 * nwords (H a).elm (H a).size → elem (H a) i = 0

/-- `v` is built from numbers, symbols, conses, strings and vectors only, to a depth below `n`. -/
def Plain (E : Env) (H : Heap) : Nat → Val → Prop
  | 0, _ => False
  | _ + 1, .int _ => True
  | _ + 1, .flt _ => True
  | n + 1, .ptr a =>
    E.issym (H a).cix = true ∨
    match (H a).elm with
    | .fixed => E.islist (H a).cix = true ∧ ∀ v ∈ (H a).slots, Plain E H n v
    | .pointer => ∀ v ∈ (H a).slots, Plain E H n v
    | _ => True

/-- The heap has the addresses below `N`. -/
def Closed (H : Heap) (N : Nat) : Prop := ∀ a < N, ∀ b, Val.ptr b ∈ (H a).slots → b < N

end Eus.Eql
