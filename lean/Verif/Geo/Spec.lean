import Verif.Geo.Model
set_option autoImplicit false
/-
What the functions of Verif/Geo/Model.lean are for, in terms of points.
-/
namespace Eus.Geo

/-! ### Drawing -/

/-- Twice the distance, along the minor axis, of a grid point from the line through (x0, y0) and (x1, y1) is at most one. -/
def HalfPixel (x0 y0 x1 y1 : Int) (p : Int × Int) : Prop :=
  2 * |(x1 - x0) * (p.2 - y0) - (y1 - y0) * (p.1 - x0)| ≤ max |x1 - x0| |y1 - y0|

/-- From one point to the next: one step along the major axis towards the end, at most one along the other, never backwards. -/
def Step (x0 y0 x1 y1 : Int) (p q : Int × Int) : Prop :=
  let sx := if x1 - x0 > 0 then 1 else -1
  let sy := if y1 - y0 > 0 then 1 else -1
  if |x1 - x0| > |y1 - y0| then q.1 = p.1 + sx ∧ (q.2 = p.2 ∨ q.2 = p.2 + sy)
  else q.2 = p.2 + sy ∧ (q.1 = p.1 ∨ q.1 = p.1 + sx)

/-! ### Lines and clipping -/

section
variable {K : Type} [Field K]

/-- The point of the line from p (0) to q (1) with parameter t, in the plane and in space. -/
def at2 (p q : K × K) (t : K) : K × K := (p.1 + t * (q.1 - p.1), p.2 + t * (q.2 - p.2))
def at3 (p q : V3 K) (t : K) : V3 K := ⟨p.x + t * (q.x - p.x), p.y + t * (q.y - p.y), p.z + t * (q.z - p.z)⟩

/-- Directions of the same slope. -/
def Parallel2 (a1 a2 b1 b2 : K × K) : Prop := (a2.1 - a1.1) * (b2.2 - b1.2) = (a2.2 - a1.2) * (b2.1 - b1.1)

variable [LinearOrder K]

/-- The point is on the segment. -/
def OnSeg (p q r : V3 K) : Prop := ∃ t, 0 ≤ t ∧ t ≤ 1 ∧ r = at3 p q t

/-- The view of `viewportclip`: |x| ≤ z and |y| ≤ z. -/
def InView (p : V3 K) : Prop := -p.z ≤ p.x ∧ p.x ≤ p.z ∧ -p.z ≤ p.y ∧ p.y ≤ p.z

/-- The view of `homo-viewport-clip`: |x| ≤ w, |y| ≤ w, 0 ≤ z ≤ w. -/
def InView4 (p : V4 K) : Prop := -p.w ≤ p.x ∧ p.x ≤ p.w ∧ -p.w ≤ p.y ∧ p.y ≤ p.w ∧ 0 ≤ p.z ∧ p.z ≤ p.w

/-! ### Boxes -/

variable {n : Nat}

/-- The points of a box. -/
def Box.Mem (b : Box n K) (p : Fin n → K) : Prop := ∀ i, b.minpoint i ≤ p i ∧ p i ≤ b.maxpoint i

/-- The box has a point. -/
def Box.Proper (b : Box n K) : Prop := ∀ i, b.minpoint i ≤ b.maxpoint i

end

/-! ### Polygons -/

section
variable {K : Type} [Field K]

def V3.sum : List (V3 K) → V3 K
  | [] => ⟨0, 0, 0⟩
  | v :: vs => v.add (V3.sum vs)

/-- The sides of a polygon, in order: from each vertex to the next, and from the last to the first. -/
def sides : List (V3 K) → List (V3 K × V3 K)
  | [] => []
  | v :: vs => (v :: vs).zip (vs ++ [v])

/-- Twice the area of a polygon as a vector (perpendicular to it): the sum of a × b over its sides. -/
def vectorArea (poly : List (V3 K)) : V3 K := V3.sum ((sides poly).map fun s => s.1.cross s.2)

/-- Twice the area of the triangle a b c, as a vector: (b - a) × (c - a). -/
def triArea (a b c : V3 K) : V3 K := (b.sub a).cross (c.sub a)

/-- Twice the signed area, seen along n, of the triangles that o forms with the sides. -/
def fanArea (o n : V3 K) (poly : List (V3 K)) : K := ((sides poly).map fun s => n.dot (triArea s.1 s.2 o)).sum

/-- The same triangles, each weighing its (doubled) area at its centre of gravity. -/
def fanMoment (o n : V3 K) (poly : List (V3 K)) : V3 K :=
  V3.sum ((sides poly).map fun s => V3.scale (n.dot (triArea s.1 s.2 o)) (V3.scale (1 / 3) (o.add (s.1.add s.2))))

variable [LinearOrder K]

/-- Three points that follow one another never turn right. -/
def NoRightTurn (n : V3 K) : List (V3 K) → Prop
  | a :: b :: c :: vs => 0 ≤ n.dot (triArea a b c) ∧ NoRightTurn n (b :: c :: vs)
  | _ => True

/-- Every point is on the left of every side, or on its line. -/
def Convex (n : V3 K) (poly : List (V3 K)) : Prop := ∀ s ∈ sides poly, ∀ p ∈ poly, 0 ≤ n.dot (triArea s.1 s.2 p)

/-- The convex hull of points. -/
inductive Hull (ps : List (V3 K)) : V3 K → Prop
  | vertex {p : V3 K} : p ∈ ps → Hull ps p
  | between {p q : V3 K} {t : K} : Hull ps p → Hull ps q → 0 ≤ t → t ≤ 1 → Hull ps (at3 p q t)

end

end Eus.Geo
