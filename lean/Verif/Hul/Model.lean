import Mathlib.Algebra.Order.Ring.Defs
set_option autoImplicit false
/-
The convex hull of points in the plane (lisp/geo/primt.l:50-101 `quickhull`).
Simplifications: the numbers are those of an ordered ring (no rounding); the plane is that of x and y,
with the normal #f(0 0 1), for which the code takes x as the coordinate for the first two points.
Points are objects: `delete` compares them with `eq`, here by their `id`.
-/
namespace Eus.Hul

variable {K : Type} [CommRing K] [LinearOrder K] [IsStrictOrderedRing K]

structure Pt (K : Type) where
  id : Nat
  x : K
  y : K
deriving DecidableEq

/-- geopack.l:85-95 `triangle`: twice the area of a triangle, positive if its corners turn
counter-clockwise. -/
def tri (a b c : Pt K) : K := (b.x - a.x) * (c.y - b.y) - (b.y - a.y) * (c.x - b.x)

/-- primt.l:50-57 `find-extream`; `p` there is always the key of `ext`. -/
def findExtream (key : Pt K → K) (test : K → K → Bool) : Pt K → List (Pt K) → Pt K
  | ext, [] => ext
  | ext, v :: r => findExtream key test (if test (key v) (key ext) then v else ext) r

/-- primt.l:59-61 `leftmost-point` of a list that is not empty. -/
def leftmost (v : Pt K) (s : List (Pt K)) (p1 p2 : Pt K) : Pt K :=
  findExtream (fun x => tri x p1 p2) (fun a b => decide (b < a)) v s

/-- primt.l:63-65 `rightmost-point`. -/
def rightmost (v : Pt K) (s : List (Pt K)) (p1 p2 : Pt K) : Pt K :=
  findExtream (fun x => tri x p1 p2) (fun a b => decide (a < b)) v s

/-- primt.l:67-69 `left-points`. -/
def leftPoints (s : List (Pt K)) (p1 p2 : Pt K) : List (Pt K) := s.filter fun p => decide (tri p1 p p2 < 0)

/-- primt.l:71-73 `right-points`. -/
def rightPoints (s : List (Pt K)) (p1 p2 : Pt K) : List (Pt K) := s.filter fun p => decide (0 < tri p1 p p2)

/-- `(delete p l :count 1)`. -/
def delete1 (p : Pt K) (l : List (Pt K)) : List (Pt K) := l.eraseP fun q => q.id == p.id

/-- primt.l:75-83 `quickhull-left`; `none` when the recursion is deeper than the first argument. -/
def quickhullLeft : Nat → List (Pt K) → Pt K → Pt K → Option (List (Pt K))
  | 0, _, _, _ => none
  | _ + 1, [], l, r => some [l, r]
  | n + 1, v :: s, l, r =>
    let h := leftmost v s l r
    let s1 := leftPoints (v :: s) l h
    let s2 := leftPoints (v :: s) h r
    match quickhullLeft n s1 l h, quickhullLeft n s2 h r with
    | some a, some b => some (a ++ delete1 h b)
    | _, _ => none

/-- primt.l:85-93 `quickhull-right`. -/
def quickhullRight : Nat → List (Pt K) → Pt K → Pt K → Option (List (Pt K))
  | 0, _, _, _ => none
  | _ + 1, [], l, r => some [l, r]
  | n + 1, v :: s, l, r =>
    let h := rightmost v s l r
    let s1 := rightPoints (v :: s) l h
    let s2 := rightPoints (v :: s) h r
    match quickhullRight n s2 h r, quickhullRight n s1 l h with
    | some b, some a => some (delete1 h b ++ a)
    | _, _ => none

/-- primt.l:95-106 `quickhull` of a list that is not empty (of an empty list it is an error); `n` is the
bound on the recursion. -/
def quickhull (n : Nat) (v : Pt K) (s : List (Pt K)) : Option (List (Pt K)) :=
  let s0 := findExtream (fun p => p.x) (fun a b => decide (a ≤ b)) v s
  let s1 := findExtream (fun p => p.x) (fun a b => decide (b ≤ a)) v s
  match quickhullLeft n (leftPoints (v :: s) s0 s1) s0 s1,
      quickhullRight n (rightPoints (v :: s) s0 s1) s0 s1 with
  | some lh, some rh => some (lh ++ delete1 s1 (delete1 s0 rh)).reverse
  | _, _ => none

end Eus.Hul
