set_option autoImplicit false
/-
Paths, ends of segments.
-/
namespace Eus.Seg

/-- a path from a to b -/
def Path : Nat → List (Nat × Nat) → Nat → Prop
  | a, [], b => a = b
  | a, s :: l, b => s.1 = a ∧ Path s.2 l b

/-- how many ends of segments are at p -/
def ends (p : Nat) : List (Nat × Nat) → Nat
  | [] => 0
  | s :: l => (if s.1 = p then 1 else 0) + (if s.2 = p then 1 else 0) + ends p l

/-- a segment without direction -/
def undirected (s : Nat × Nat) : Nat × Nat := if s.1 ≤ s.2 then s else (s.2, s.1)

end Eus.Seg
