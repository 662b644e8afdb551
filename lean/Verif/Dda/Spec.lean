import Verif.Dda.Model
set_option autoImplicit false
/-
What the points of a line are.
-/
namespace Eus.Dda

/-- Two different points that touch, at a side or a corner. -/
def Touch (p q : Int × Int) : Prop :=
  p ≠ q ∧ (p.1 - q.1).natAbs ≤ 1 ∧ (p.2 - q.2).natAbs ≤ 1

/-- Each point touches the next. -/
def Chain : List (Int × Int) → Prop
  | p :: q :: r => Touch p q ∧ Chain (q :: r)
  | _ => True

/-- `p` is the point of its column (for lines that are flatter than they are steep) or of its row
that is nearest to the line from `a` to `b`: at most half a unit away from it.  The distance in the
column, times the width of the line, is the cross product. -/
def Near (a b p : Int × Int) : Prop :=
  2 * ((p.2 - a.2) * (b.1 - a.1) - (p.1 - a.1) * (b.2 - a.2)).natAbs ≤
    max (b.1 - a.1).natAbs (b.2 - a.2).natAbs

end Eus.Dda
