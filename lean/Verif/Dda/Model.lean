set_option autoImplicit false
/-
The generator of the points of a line on a raster (lisp/geo/dda.l:1-85).
Simplification: the numbers are integers without bounds (the slots are declared `:integer`).
-/
namespace Eus.Dda

/-- dda.l:11-19: the slots of a `line-dda`; `xmajor` stands for `update-method`. -/
structure Line where
  count : Int
  x : Int
  y : Int
  dx : Int
  dy : Int
  err : Int
  errinc : Int
  errdec : Int
  xyinc : Int
  length : Int
  xmajor : Bool
deriving DecidableEq, Repr

/-- `abs` of an integer. -/
def abs (a : Int) : Int := if a < 0 then -a else a

/-- dda.l:36-60 `:init`. -/
def init (x0 y0 x1 y1 : Int) : Line :=
  let dx := x1 - x0
  let dy := y1 - y0
  let adx := abs dx
  let ady := abs dy
  { count := 0, x := x0, y := y0, dx := dx, dy := dy
    errdec := 2 * abs (ady - adx)
    errinc := 2 * (if adx > ady then ady else adx)
    length := 1 + (if adx > ady then adx else ady)
    err := if adx > ady then 2 * ady - adx else 2 * adx - ady
    xyinc := if adx > ady then (if dy > 0 then 1 else -1) else (if dx > 0 then 1 else -1)
    xmajor := adx > ady }

/-- dda.l:61-66 `:update-x-major`. -/
def updateX (l : Line) : Line :=
  let l := if l.err > 0 then { l with y := l.y + l.xyinc, err := l.err - l.errdec }
    else { l with err := l.err + l.errinc }
  { l with x := l.x + (if l.dx > 0 then 1 else -1) }

/-- dda.l:67-72 `:update-y-major`. -/
def updateY (l : Line) : Line :=
  let l := if l.err > 0 then { l with x := l.x + l.xyinc, err := l.err - l.errdec }
    else { l with err := l.err + l.errinc }
  { l with y := l.y + (if l.dy > 0 then 1 else -1) }

/-- dda.l:73-77 `:next`: a point, or nil. -/
def next (l : Line) : Option (Int × Int) × Line :=
  let l := { l with count := l.count + 1 }
  if l.count > l.length then (none, l)
  else (some (l.x, l.y), if l.xmajor then updateX l else updateY l)

/-- dda.l:82-87 `dda-line`: the points until `:next` gives nil; at most `fuel` of them are taken. -/
def points : Nat → Line → Option (List (Int × Int))
  | 0, _ => none
  | n + 1, l => match next l with
    | (none, _) => some []
    | (some p, l') => (points n l').map (p :: ·)

end Eus.Dda
