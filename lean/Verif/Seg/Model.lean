set_option autoImplicit false
/-
Polygons from segments: `find-next-segment`, `find-loop` and `construct-polygon` of `lisp/geo/bodyrel.l`.  Points are numbered: two points
are the same, or farther apart than the tolerances.  The holes and the direction of a polygon are not modelled.
-/
namespace Eus.Seg

abbrev Seg := Nat × Nat

/-- bodyrel.l:69-78 `find-next-segment`: the closest one; the first of those that have the point as an end, since no other is within the tolerance -/
def findNext (nv : Nat) (segs : List Seg) : Option Seg := segs.find? fun s => decide (s.1 = nv) || decide (s.2 = nv)

/-- the end at which one comes out, bodyrel.l:90-92 -/
def other (nv : Nat) (s : Seg) : Nat := if nv = s.2 then s.1 else s.2

/-- bodyrel.l:87-93: the chain from the point nv, where it ends, and the segments that remain; the first number bounds the steps, each of which
takes a segment away -/
def walk : Nat → Nat → List Seg → List Seg × Nat × List Seg
  | 0, nv, segs => ([], nv, segs)
  | f + 1, nv, segs =>
    match findNext nv segs with
    | none => ([], nv, segs)
    | some s =>
      let r := walk f (other nv s) (segs.erase s)
      ((nv, other nv s) :: r.1, r.2.1, r.2.2)

/-- bodyrel.l:81-106 `find-loop`: the chain, and whether it is closed (a polygon; otherwise lines), and the remaining segments -/
def findLoop : List Seg → (List Seg × Bool) × List Seg
  | [] => (([], false), [])
  | s :: segs =>
    let r := walk segs.length s.2 segs
    ((s :: r.1, decide (s.1 = r.2.1)), r.2.2)

/-- bodyrel.l:117-125 `construct-polygon`: until no segments remain; the first number bounds the loops -/
def construct : Nat → List Seg → List (List Seg × Bool)
  | 0, _ => []
  | _ + 1, [] => []
  | f + 1, s :: segs =>
    let r := findLoop (s :: segs)
    r.1 :: construct f r.2

/-- all of it -/
def polygons (segs : List Seg) : List (List Seg × Bool) := construct segs.length segs

end Eus.Seg
