import Verif.Hul.Model
import Mathlib.Data.List.Chain
set_option autoImplicit false
/-
What the convex hull of points in the plane is.
-/
namespace Eus.Hul

variable {K : Type} [CommRing K] [LinearOrder K] [IsStrictOrderedRing K]

/-- `p` is to the left of the way from `a` to `b`, or on it (the z-component of the cross product). -/
def LeftOf (a b p : Pt K) : Prop :=
  0 ≤ (b.x - a.x) * (p.y - a.y) - (b.y - a.y) * (p.x - a.x)

/-- From `a` to `b` is a side of a polygon, gone round counter-clockwise, with all of `S` inside. -/
def Side (S : List (Pt K)) (a b : Pt K) : Prop :=
  (a.x ≠ b.x ∨ a.y ≠ b.y) ∧ ∀ p ∈ S, LeftOf a b p

/-- `H` is the convex hull of `S`: its corners are points of `S`, no two in the same place, and all of `S` is on the
inner side of each of its sides, also of the one from its last corner to its first. -/
def IsHull (S H : List (Pt K)) : Prop :=
  (∀ p ∈ H, p ∈ S) ∧ (H.map fun p => (p.x, p.y)).Nodup ∧ H.IsChain (Side S) ∧
  ∃ a b, H.head? = some a ∧ H.getLast? = some b ∧ Side S b a

end Eus.Hul
