import Mathlib.Algebra.Order.Field.Rat
import Mathlib.Data.Rat.Defs
set_option autoImplicit false
/-
Drawing without hidden lines: the parts of an edge, `lisp/geo/hid.l`.  Exact numbers instead of floats.
-/
namespace Eus.Hid

/-- hid.l:78-82 `:homo2real`; `wp`, `wn`: the weights `homo-pvert[3]`, `homo-nvert[3]` -/
def homo2real (wp wn p : ℚ) : ℚ := p * wp / (p * wp + wn * (1 - p))

/-- an element of `segments`: the parameter in the picture, the one on the edge, visibility of what follows, hid.l:89-93 -/
structure Cut where
  p : ℚ
  t : ℚ
  vis : Bool

/-- hid.l:157 -/
def start : List Cut := [⟨0, 0, true⟩, ⟨1, 1, true⟩]

/-- hid.l:83-93 `:add-segment` -/
def addSegment (wp wn : ℚ) (segs : List Cut) (p : ℚ) : List Cut :=
  let t := homo2real wp wn p
  if 0 ≤ t ∧ t ≤ 1 then ⟨p, t, true⟩ :: segs else segs

/-- hid.l:113 `:sort-segments`, by the parameter in the picture; the algorithm of `sort` is another one -/
def insertCut (c : Cut) : List Cut → List Cut
  | [] => [c]
  | d :: l => if c.p ≤ d.p then c :: d :: l else d :: insertCut c l
def sortCuts (l : List Cut) : List Cut := l.foldr insertCut []

/-- a face that is not one of the two of the edge: the box of its image, for the parameter in the picture, hid.l:171, 173-184 (made for the front faces of all bodies), and whether it cuts the
line from the point of the edge to the viewpoint -/
structure Face where
  box : ℚ → Bool
  hides : ℚ → Bool

/-- hid.l:60-72 `check-visibility`; the two faces of the edge are left out of `faces` -/
def visible (faces : List Face) (p t : ℚ) : Bool := faces.all fun f => !(f.box p && f.hides t)

/-- hid.l:116-132 `:mark-visible-segments`: it is tested at the middle in both parameters -/
def mark (faces : List Face) : List Cut → List Cut
  | a :: b :: l => { a with vis := visible faces ((a.p + b.p) / 2) ((a.t + b.t) / 2) } :: mark faces (b :: l)
  | l => l

/-- hid.l:136-145 `:collect-segments`, before the clipping and without the reversal by `push`; the parameters on the edge -/
def collect (flag : Bool) : List Cut → List (ℚ × ℚ)
  | a :: b :: l => if a.vis = flag then (a.t, b.t) :: collect flag (b :: l) else collect flag (b :: l)
  | _ => []

/-- hid.l:94-96 `:projected-point`, 97-99 `:projected-homo-point`, for one coordinate -/
def between (a b p : ℚ) : ℚ := (1 - p) * a + p * b

/-- hid.l:296-300 `hid2` for one edge, with the intersections `cuts` with other edges in the picture -/
def parts (wp wn : ℚ) (faces : List Face) (cuts : List ℚ) (flag : Bool) : List (ℚ × ℚ) :=
  collect flag (mark faces (sortCuts (cuts.foldl (addSegment wp wn) start)))

end Eus.Hid
