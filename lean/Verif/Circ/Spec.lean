import Verif.Circ.Model
set_option autoImplicit false
/-
What it means that printing and reading keep structure: the objects that can be reached, and the same graph in another heap.
-/
namespace Eus.Circ.Spec

open Eus.Circ (Val Cell Heap)

/-- The values in an object. -/
def parts : Cell → List Val
  | .cons a d => [a, d]
  | .vec _ vs => vs
  | .str _ _ => []

/-- The objects that can be reached from a value. -/
inductive Reach (h : Heap) : Val → Nat → Prop where
  | here (a : Nat) : Reach h (.ptr a) a
  | step {v : Val} {a b : Nat} {c : Cell} : Reach h v a → h[a]? = some c → Val.ptr b ∈ parts c → Reach h v b

/-- A value with its pointers renamed. -/
def mapVal (f : Nat → Nat) : Val → Val
  | .ptr a => .ptr (f a)
  | v => v

/-- An object with its pointers renamed. -/
def mapCell (f : Nat → Nat) : Cell → Cell
  | .cons a d => .cons (mapVal f a) (mapVal f d)
  | .vec s vs => .vec s (vs.map (mapVal f))
  | .str s k => .str s k

/-- The same graph: one object for each object that can be reached, with the same contents. -/
def Same (h : Heap) (v : Val) (h' : Heap) (v' : Val) : Prop :=
  ∃ f : Nat → Nat, (∀ a b, Reach h v a → Reach h v b → f a = f b → a = b) ∧ v' = mapVal f v ∧
    ∀ a c, Reach h v a → h[a]? = some c → h'[f a]? = some (mapCell f c)

/-- A value that occurs in data: no label, no place that waits for one; pointers go somewhere. -/
def GoodVal (h : Heap) : Val → Prop
  | .ptr a => a < h.length
  | .lab _ => False
  | .hole _ => False
  | _ => True

/-- A heap: values are good and vectors have as many elements as their size says. -/
def GoodHeap (h : Heap) : Prop :=
  ∀ c ∈ h, (∀ v ∈ parts c, GoodVal h v) ∧ ∀ s vs, c = .vec s vs → vs.length = s

/-- No form `(quote x)`. -/
def NoQuote (h : Heap) : Prop := ∀ b e, Cell.cons .quote (.ptr b) ∈ h → h[b]? ≠ some (.cons e .nil)

end Eus.Circ.Spec
