set_option autoImplicit false
/-
Steps between cells of a grid.
-/
namespace Eus.Dtr

/-- |a - b| -/
def gap (a b : Nat) : Nat := (a - b) + (b - a)

/-- the number of steps to a neighbour (in the six directions) from p to q -/
def steps (p q : Nat × Nat × Nat) : Nat := gap p.1 q.1 + gap p.2.1 q.2.1 + gap p.2.2 q.2.2

/-- cell p of the grid of n×n×n cells, counted from 1 -/
def Cell (n : Nat) (p : Nat × Nat × Nat) : Prop := (1 ≤ p.1 ∧ p.1 ≤ n) ∧ (1 ≤ p.2.1 ∧ p.2.1 ≤ n) ∧ 1 ≤ p.2.2 ∧ p.2.2 ≤ n

/-- `m` is the distance of `p` from the set `O`, up to `B`. -/
structure IsDist (B : Nat) (O : Nat × Nat × Nat → Prop) (p : Nat × Nat × Nat) (m : Nat) : Prop where
  bound : m ≤ B
  least : ∀ q, O q → m ≤ steps p q
  attained : m = B ∨ ∃ q, O q ∧ m = steps p q

end Eus.Dtr
