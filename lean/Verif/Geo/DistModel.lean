import Verif.Geo.Model
import Mathlib.Analysis.SpecialFunctions.Sqrt
set_option autoImplicit false
/-
lisp/geo/geopack.l: distances of points, lines and polygons, over the real numbers (exact, not floating point).
-/
namespace Eus.Geo

noncomputable section

/-- c/matrix.c:313-339 `distance` -/
def dist (a b : V3 ℝ) : ℝ := Real.sqrt ((a.sub b).dot (a.sub b))

/-- c/matrix.c:244-266 `norm` -/
def norm (a : V3 ℝ) : ℝ := Real.sqrt (a.dot a)

/-- The slots of a line. -/
structure Line where
  pvert : V3 ℝ
  nvert : V3 ℝ

/-- geopack.l:400-403 `:parameter`; none: a quotient by zero. -/
def Line.parameter (l : Line) (p : V3 ℝ) : Option ℝ :=
  let a := l.nvert.sub l.pvert
  let b := p.sub l.pvert
  if a.dot a = 0 then none else some (a.dot b / a.dot a)

/-- geopack.l:404-410 `:point` -/
def Line.point (l : Line) (p : ℝ) : V3 ℝ := V3.mid p l.pvert l.nvert

/-- geopack.l:419-420 `:end-point`; vertices are told apart by eq, which is modelled by identity numbers. -/
def endPoint (pvert nvert v : Nat) : Option Nat := if pvert = v then some v else if nvert = v then some v else none

/-- geopack.l:443-446 `:foot`; none: a quotient by zero. -/
def Line.foot (l : Line) (p : V3 ℝ) : Option ℝ :=
  let a := l.pvert.sub l.nvert
  if a.dot a = 0 then none else some (a.dot (l.pvert.sub p) / a.dot a)

/-- What `:common-perpendicular` returns: :parallel or two points. -/
inductive Perp where
  | parallel
  | points (p q : V3 ℝ)

/-- geopack.l:447-465 `:common-perpendicular`; thr is *parallel-threshold*, 0.01. -/
def Line.commonPerpendicular (thr : ℝ) (s l : Line) : Perp :=
  let c11 := norm (l.nvert.sub l.pvert)
  let c11 := -(c11 * c11)
  let c12 := (s.nvert.sub s.pvert).dot (l.nvert.sub l.pvert)
  let c21 := -c12
  let c22 := norm (s.nvert.sub s.pvert)
  let c22 := c22 * c22
  let det := c12 * c12 + c11 * c22
  if |det| < thr then .parallel
  else
    let a := (s.nvert.sub s.pvert).dot (l.pvert.sub s.pvert)
    let b := (l.nvert.sub l.pvert).dot (l.pvert.sub s.pvert)
    .points (s.point ((c11 * a + c12 * b) / det)) (l.point ((c21 * a + c22 * b) / det))

/-- geopack.l:468-473 `:distance-point`; none: not a number. -/
def Line.distancePoint (l : Line) (p : V3 ℝ) : Option ℝ :=
  match l.foot p with
  | none => none
  | some par =>
    if par > 1 then some (dist l.nvert p)
    else if par < 0 then some (dist l.pvert p)
    else some (dist (l.point par) p)

/-- The smallest of four numbers. -/
def min4 : Option ℝ → Option ℝ → Option ℝ → Option ℝ → Option ℝ
  | some a, some b, some c, some d => some (min (min (min a b) c) d)
  | _, _, _, _ => none

/-- geopack.l:474-499 `:distance-line`; none: not a number. -/
def Line.distanceLine (s ln : Line) : Option ℝ :=
  let b1 := ln.pvert
  let b2 := ln.nvert
  let a := s.nvert.sub s.pvert
  let b := b2.sub b1
  let ab := a.dot b
  let aa := a.dot a
  let bb := b.dot b
  let x := s.pvert.sub b1
  let para := ab * ab - aa * bb
  let ends := min4 (s.distancePoint b1) (s.distancePoint b2) (ln.distancePoint s.pvert) (ln.distancePoint s.nvert)
  if |para| > 1 / 10000 then
    let xa := x.dot a
    let xb := x.dot b
    let ta := (bb * xa - ab * xb) / para
    let tb := (ab * xa - aa * xb) / para
    if (0 < ta ∧ ta < 1) ∧ (0 < tb ∧ tb < 1) then some (dist (s.point ta) (ln.point tb)) else ends
  else ends

/-- geopack.l:122-128 `farthest` -/
def farthestLoop (p : V3 ℝ) : List (V3 ℝ) → V3 ℝ → ℝ → V3 ℝ
  | [], vv, _ => vv
  | v :: vs, vv, d => if dist p v > d then farthestLoop p vs v (dist p v) else farthestLoop p vs vv d
def farthest (p : V3 ℝ) : List (V3 ℝ) → Option (V3 ℝ)
  | [] => none
  | v :: vs => some (farthestLoop p vs v (dist p v))

/-- geopack.l:133-138: the loop of `farthest-pair` -/
def farthestPairLoop : List (V3 ℝ) → V3 ℝ × V3 ℝ → ℝ → V3 ℝ × V3 ℝ
  | v11 :: v :: vs, r, d =>
    let v22 := farthestLoop v11 vs v (dist v11 v)
    if dist v11 v22 > d then farthestPairLoop (v :: vs) (v11, v22) (dist v11 v22) else farthestPairLoop (v :: vs) r d
  | _, r, _ => r

/-- geopack.l:130-139 `farthest-pair`; none: the error of `distance` for NIL, with fewer than two points. -/
def farthestPair : List (V3 ℝ) → Option (V3 ℝ × V3 ℝ)
  | v1 :: ps =>
    match farthest v1 ps with
    | none => none
    | some v2 => some (farthestPairLoop ps (v1, v2) (dist v1 v2))
  | [] => none

/-- What `:insidep` returns. -/
inductive Where where
  | inside
  | outside
  | border
deriving DecidableEq

/-- geopack.l:955-968: the loop of `:insidep` of a convex polygon; when two vertices are equal the quotient is not a number and neither comparison holds. -/
def insideLoop (normal : V3 ℝ) (eps : ℝ) (p : V3 ℝ) : V3 ℝ → List (V3 ℝ) → Where
  | _, [] => .inside
  | v2, v1 :: vs =>
    let th := triangle v2 v1 p normal
    if dist v2 v1 ≠ 0 ∧ epsEq (th / dist v2 v1) 0 eps = true then
      let a := v1.sub v2
      let b := p.sub v2
      let param := a.dot b / a.dot a
      if epsInRange 0 param 1 eps then .border else insideLoop normal eps p v1 vs
    else if th < 0 then .outside
    else insideLoop normal eps p v1 vs

/-- geopack.l:949-968 `:insidep` of a polygon whose slot convexp is T; vs is the slot vertices. -/
def insidep (normal : V3 ℝ) (eps : ℝ) (vs : List (V3 ℝ)) (p : V3 ℝ) : Where :=
  match vs with
  | [] => .inside
  | v :: vs => insideLoop normal eps p v vs

end

end Eus.Geo
