import Mathlib.Algebra.Order.Field.Basic
set_option autoImplicit false
/-
lisp/geo: drawing lines, intersecting and clipping them, boxes, planes, polygons.

Coordinates are exact: the numbers come from an ordered field, not from floating point; those of dda.l are integers.  What the code computes by dividing by zero is an outcome of its own where it can arise.  Distances that take a square root are in Verif/Geo/Dist.lean.
-/
namespace Eus.Geo

/-! ### dda.l -/

/-- dda.l:12-18: the slots of a line-DDA; xMajor: update-method is :update-x-major. -/
structure Dda where
  count : Int
  x : Int
  y : Int
  dx : Int
  dy : Int
  err : Int
  errinc : Int
  errdec : Int
  xyinc : Int
  length : Int
  xMajor : Bool
deriving DecidableEq, Repr

/-- dda.l:35-57 `:init` -/
def Dda.init (x0 y0 x1 y1 : Int) : Dda :=
  let dx := x1 - x0
  let dy := y1 - y0
  let adx := |dx|
  let ady := |dy|
  { count := 0, x := x0, y := y0, dx := dx, dy := dy,
    err := if adx > ady then 2 * ady - adx else 2 * adx - ady,
    errinc := 2 * (if adx > ady then ady else adx),
    errdec := 2 * |ady - adx|,
    xyinc := if adx > ady then (if dy > 0 then 1 else -1) else (if dx > 0 then 1 else -1),
    length := 1 + max adx ady,
    xMajor := decide (adx > ady) }

/-- dda.l:58-63 `:update-x-major` -/
def Dda.updateX (d : Dda) : Dda :=
  let d := if d.err > 0 then { d with y := d.y + d.xyinc, err := d.err - d.errdec } else { d with err := d.err + d.errinc }
  { d with x := d.x + (if d.dx > 0 then 1 else -1) }

/-- dda.l:64-69 `:update-y-major` -/
def Dda.updateY (d : Dda) : Dda :=
  let d := if d.err > 0 then { d with x := d.x + d.xyinc, err := d.err - d.errdec } else { d with err := d.err + d.errinc }
  { d with y := d.y + (if d.dy > 0 then 1 else -1) }

/-- dda.l:70-74 `:next` -/
def Dda.next (d : Dda) : Option (Int × Int) × Dda :=
  let d := { d with count := d.count + 1 }
  if d.count > d.length then (none, d)
  else (some (d.x, d.y), if d.xMajor then d.updateX else d.updateY)

/-- dda.l:83: the loop of `dda-line`; none: not finished after so many rounds. -/
def Dda.collect : Nat → Dda → Option (List (Int × Int))
  | 0, _ => none
  | k + 1, d =>
    match d.next with
    | (none, _) => some []
    | (some p, d') => (Dda.collect k d').map (p :: ·)

/-- dda.l:79-84 `dda-line` -/
def ddaLine (k : Nat) (x0 y0 x1 y1 : Int) : Option (List (Int × Int)) := (Dda.init x0 y0 x1 y1).collect k

/-! ### Vectors -/

/-- A float-vector of three elements. -/
@[ext] structure V3 (K : Type) where
  x : K
  y : K
  z : K
deriving DecidableEq, Repr

section
variable {K : Type} [Field K]

/-- c/matrix.c:28-68 `v+` -/
def V3.add (a b : V3 K) : V3 K := ⟨a.x + b.x, a.y + b.y, a.z + b.z⟩
/-- c/matrix.c:92-154 `v-` -/
def V3.sub (a b : V3 K) : V3 K := ⟨a.x - b.x, a.y - b.y, a.z - b.z⟩
/-- c/matrix.c `scale` -/
def V3.scale (s : K) (a : V3 K) : V3 K := ⟨s * a.x, s * a.y, s * a.z⟩
/-- c/matrix.c:219-242 `v.` -/
def V3.dot (a b : V3 K) : K := a.x * b.x + a.y * b.y + a.z * b.z
/-- c/matrix.c:393-417 `v*`; geo/intersection.c:77-82 `crossproduct` -/
def V3.cross (a b : V3 K) : V3 K := ⟨a.y * b.z - a.z * b.y, a.z * b.x - a.x * b.z, a.x * b.y - a.y * b.x⟩
/-- c/matrix.c:419-438 `v.*`; geo/intersection.c:71-75 `determinant3` sums the same products. -/
def V3.triple (a b c : V3 K) : K :=
  a.x * b.y * c.z + a.z * b.x * c.y + a.y * b.z * c.x - a.z * b.y * c.x - a.x * b.z * c.y - a.y * b.x * c.z
/-- c/matrix.c:476-511 `midpoint` -/
def V3.mid (r : K) (p q : V3 K) : V3 K :=
  ⟨p.x * (1 - r) + q.x * r, p.y * (1 - r) + q.y * r, p.z * (1 - r) + q.z * r⟩

end

/-! ### intersection.c: lines -/

section
variable {K : Type} [Field K] [LinearOrder K]

/-- intersection.c:18-50 `line-intersection`; only the first two elements of each vector are read. -/
def lineIntersection (a1 a2 b1 b2 : K × K) (range : Bool) : Option (K × K) :=
  let ax := a2.1 - a1.1
  let ay := a2.2 - a1.2
  let bx := b2.1 - b1.1
  let by' := b2.2 - b1.2
  let abx := b1.1 - a1.1
  let aby := b1.2 - a1.2
  let cz := ax * by' - ay * bx
  if cz = 0 then none
  else
    let u := (abx * by' - aby * bx) / cz
    let v := (abx * ay - aby * ax) / cz
    if range && (decide (u < 0) || decide (1 < u) || decide (v < 0) || decide (1 < v)) then none
    else some (u, v)

/-- What `line-intersection3` returns: NIL, two parameters, or two quotients by zero. -/
inductive Params (K : Type) where
  | nil
  | params (u v : K)
  | notNumbers
deriving DecidableEq, Repr

/-- intersection.c:85-119 `line-intersection3`; the tolerance is 0.0 when it is not given. -/
def lineIntersection3 (a1 a2 b1 b2 : V3 K) (tolerance : K) : Params K :=
  let v1 := a2.sub a1
  let v2 := b2.sub b1
  let p2p1 := b1.sub a1
  let cross := v1.cross v2
  let cross2 := cross.dot cross
  if cross2 < tolerance then .nil
  else if cross2 = 0 then .notNumbers
  else .params (p2p1.triple v2 cross / cross2) (p2p1.triple v1 cross / cross2)

/-! ### intersection.c: clipping -/

/-- intersection.c:134-135 `clipcode`: the part for x and the part for y. -/
def clipX (p : V3 K) : Nat := if p.x < -p.z then 1 else if p.x > p.z then 2 else 0
def clipY (p : V3 K) : Nat := if p.y < -p.z then 4 else if p.y > p.z then 8 else 0
def clipcode (p : V3 K) : Nat := clipX p + clipY p

/-- intersection.c:156-167: the point on the boundary named by the code c; the line runs from p to q.  none: a quotient by zero. -/
def clipPoint (c : Nat) (p q : V3 K) : Option (V3 K) :=
  if c &&& 1 ≠ 0 then
    let den := (p.x - q.x) - (q.z - p.z)
    if den = 0 then none else
    let temp := (p.z + p.x) / den
    let z := temp * (q.z - p.z) + p.z
    some ⟨-z, temp * (q.y - p.y) + p.y, z⟩
  else if c &&& 2 ≠ 0 then
    let den := (q.x - p.x) - (q.z - p.z)
    if den = 0 then none else
    let temp := (p.z - p.x) / den
    let z := temp * (q.z - p.z) + p.z
    some ⟨z, temp * (q.y - p.y) + p.y, z⟩
  else if c &&& 4 ≠ 0 then
    let den := (p.y - q.y) - (q.z - p.z)
    if den = 0 then none else
    let temp := (p.z + p.y) / den
    let z := temp * (q.z - p.z) + p.z
    some ⟨temp * (q.x - p.x) + p.x, -z, z⟩
  else
    let den := (q.y - p.y) - (q.z - p.z)
    if den = 0 then none else
    let temp := (p.z - p.y) / den
    let z := temp * (q.z - p.z) + p.z
    some ⟨temp * (q.x - p.x) + p.x, z, z⟩

/-- How a clipping function ends: NIL, two points, a quotient by zero, or not within the fuel. -/
inductive Clip (P : Type) where
  | nil
  | seg (p q : P)
  | notNumber
  | more
deriving DecidableEq, Repr

/-- intersection.c:152-181: the loop of `viewportclip`. -/
def vpclip : Nat → V3 K → V3 K → Clip (V3 K)
  | 0, _, _ => .more
  | k + 1, p, q =>
    let c1 := clipcode p
    let c2 := clipcode q
    if c1 = 0 ∧ c2 = 0 then .seg p q
    else if c1 &&& c2 ≠ 0 then .nil
    else
      let c := if c1 ≠ 0 then c1 else c2
      match clipPoint c p q with
      | none => .notNumber
      | some r => if c = c1 then vpclip k r q else vpclip k p r

/-- A float-vector of four elements: x, y, z, w. -/
@[ext] structure V4 (K : Type) where
  x : K
  y : K
  z : K
  w : K
deriving DecidableEq, Repr

/-- intersection.c:183-191 `windowcoords`: the six numbers wc. -/
def windowcoords (p : V4 K) : List K := [p.w + p.x, p.w - p.x, p.w + p.y, p.w - p.y, p.z, p.w - p.z]

/-- intersection.c:215-218: one round of the loop. -/
def hclipStep (t : K × K) (w : K × K) : K × K :=
  if w.1 < 0 ∨ w.2 < 0 then
    let tt := w.1 / (w.1 - w.2)
    if w.1 < 0 then (if tt > t.1 then (tt, t.2) else t)
    else (if tt < t.2 then (t.1, tt) else t)
  else t

/-- intersection.c:221-224: the point with parameter t. -/
def V4.at (p q : V4 K) (t : K) : V4 K :=
  ⟨p.x + t * (q.x - p.x), p.y + t * (q.y - p.y), p.z + t * (q.z - p.z), p.w + t * (q.w - p.w)⟩

/-- intersection.c:193-236 `homo-viewport-clip`; c1 & c2 is not zero when both numbers of some pair are negative. -/
def homoVpclip (p q : V4 K) : Clip (V4 K) :=
  let ws := (windowcoords p).zip (windowcoords q)
  if ws.any fun w => decide (w.1 < 0) && decide (w.2 < 0) then .nil
  else
    let t := ws.foldl hclipStep (0, 1)
    if t.2 ≥ t.1 then .seg (if t.1 ≠ 0 then p.at q t.1 else p) (if t.2 ≠ 1 then p.at q t.2 else q)
    else .nil

end

/-! ### geopack.l: boxes -/

section
variable {K : Type} [Field K] [LinearOrder K] {n : Nat}

/-- c/matrix.c:654-687 `vmin`, 689-722 `vmax`, of a first vector and others -/
def vmin (v : Fin n → K) (vs : List (Fin n → K)) : Fin n → K :=
  vs.foldl (fun r v j => if v j < r j then v j else r j) v
def vmax (v : Fin n → K) (vs : List (Fin n → K)) : Fin n → K :=
  vs.foldl (fun r v j => if v j > r j then v j else r j) v

/-- c/matrix.c:563-583 `v<` and 585-605 `v>` -/
def vless (a b : Fin n → K) : Bool := decide (∀ i, ¬ a i > b i)
def vgreater (a b : Fin n → K) : Bool := decide (∀ i, ¬ a i < b i)

/-- The slots of a bounding-box. -/
structure Box (n : Nat) (K : Type) where
  minpoint : Fin n → K
  maxpoint : Fin n → K

/-- geopack.l:292-297 `:grow`, not abs -/
def Box.grow (s : K) (b : Box n K) : Box n K :=
  ⟨fun i => b.minpoint i - s * (b.maxpoint i - b.minpoint i), fun i => b.maxpoint i + s * (b.maxpoint i - b.minpoint i)⟩

/-- `(if tolerance (send self :grow tolerance))` -/
def Box.growIf (s : Option K) (b : Box n K) : Box n K :=
  match s with
  | some s => b.grow s
  | none => b

/-- geopack.l:260-261 `:box`: the box returned, which is the receiver as it is afterwards. -/
def Box.box (tol : Option K) (b : Box n K) : Box n K := b.growIf tol

/-- geopack.l:336-340 `:init` of a non-empty list -/
def Box.init (v : Fin n → K) (vs : List (Fin n → K)) (tol : Option K) : Box n K :=
  Box.growIf tol ⟨vmin v vs, vmax v vs⟩

/-- geopack.l:331-335 `:init2` -/
def Box.init2 (v1 v2 : Fin n → K) (tol : Option K) : Box n K := Box.growIf tol ⟨vmin v1 [v2], vmax v1 [v2]⟩

/-- geopack.l:268 `:inner` -/
def Box.inner (b : Box n K) (p : Fin n → K) : Bool := vless p b.maxpoint && vgreater p b.minpoint

/-- geopack.l:269-281 `:intersection`; a tolerance makes vectors of three elements, so with it the boxes have three dimensions. -/
def Box.inter (a b : Box n K) (tol : Option K) : Option (Box n K) :=
  let v1 := vmax a.minpoint [b.minpoint]
  let v2 := vmin a.maxpoint [b.maxpoint]
  let v1 := match tol with
    | some t => fun i => v1 i - t
    | none => v1
  let v2 := match tol with
    | some t => fun i => v2 i + t
    | none => v2
  if vless v1 v2 then some (Box.init2 v1 v2 none) else none

/-- geopack.l:282-287 `:union` -/
def Box.union (a b : Box n K) (tol : Option K) : Box n K :=
  Box.init2 (vmin a.minpoint [b.minpoint]) (vmax a.maxpoint [b.maxpoint]) tol

/-- geopack.l:288-291 `:intersection-p` -/
def Box.interP (a b : Box n K) : Bool := vless (vmax a.minpoint [b.minpoint]) (vmin a.maxpoint [b.maxpoint])

/-- geopack.l:301-307 `:extream-point` -/
def Box.extreme (b : Box n K) (dir : Fin n → K) : Fin n → K := fun i => if dir i > 0 then b.maxpoint i else b.minpoint i

/-- `v.` of vectors of any length -/
def vdot (a b : Fin n → K) : K := (List.finRange n).foldl (fun s i => s + a i * b i) 0

/-- geopack.l:308-311 `:below` -/
def Box.below (a b : Box n K) (dir : Fin n → K) : Bool :=
  decide (vdot dir (a.extreme dir) < vdot dir (b.extreme fun i => -1 * dir i))

/-- geopack.l:312-322 `:corners` -/
def Box.corners (b : Box n K) : List (Fin n → K) :=
  ((List.range (2 ^ n)).map fun i (j : Fin n) => if i.testBit j then b.maxpoint j else b.minpoint j).reverse

/-- geopack.l:298-300 `:volume` -/
def Box.volume (b : Box 3 K) : K :=
  (b.maxpoint 0 - b.minpoint 0) * (b.maxpoint 1 - b.minpoint 1) * (b.maxpoint 2 - b.minpoint 2)

/-- geopack.l:348-354 `bounding-box-intersection` -/
def boxIntersection (tol : Option K) (b : Box n K) : List (Box n K) → Option (Box n K)
  | [] => some b
  | c :: cs =>
    match b.inter c tol with
    | none => none
    | some r => boxIntersection tol r cs

/-- geopack.l:356-361 `bounding-box-union`; it is given a tolerance and does not use it. -/
def boxUnion (_tol : Option K) (b : Box n K) (bs : List (Box n K)) : Box n K := bs.foldl (fun r c => r.union c none) b

/-- geopack.l:902-904 `:boxtest` of a polygon with the vertices v, vs, when the argument is a box: the answer, and the argument afterwards. -/
def polygonBoxtest (v : Fin n → K) (vs : List (Fin n → K)) (b : Box n K) (tol : Option K) : Option (Box n K) × Box n K :=
  ((b.box tol).inter (Box.init v vs tol) none, b.box tol)

/-- geopack.l:413-417 `:boxtest` of a line: the answer, and the argument afterwards. -/
def lineBoxtest (p q : Fin n → K) (b : Box n K) (tol : Option K) : Bool × Box n K :=
  (b.interP (Box.init2 p q tol), b)

end

/-! ### geopack.l: comparisons with a tolerance -/

section
variable {K : Type} [Field K] [LinearOrder K]

/-- geopack.l:197-199 `eps=` -/
def epsEq (m n eps : K) : Bool := decide (|m - n| < eps)
/-- geopack.l:201-203 `eps<` -/
def epsLt (m n eps : K) : Bool := decide (m < n - eps)
/-- geopack.l:205-207 `eps>` -/
def epsGt (m n eps : K) : Bool := decide (m > n + eps)
/-- geopack.l:209-211 `eps<=` -/
def epsLe (m n eps : K) : Bool := decide (m < n + eps)
/-- geopack.l:213-215 `eps>=` -/
def epsGe (m n eps : K) : Bool := decide (m > n - eps)
/-- geopack.l:217 `eps<>` -/
def epsNe (m n eps : K) : Bool := !epsEq m n eps
/-- geopack.l:232-236 `eps-in-range` -/
def epsInRange (a b c eps : K) : Bool := decide (a - eps ≤ b) && decide (b ≤ c + eps)

/-! ### geopack.l: planes and polygons -/

/-- The slots normal and distance of a plane. -/
structure Plane (K : Type) where
  normal : V3 K
  distance : K

/-- geopack.l:851-859 `:init` with a point, and with a number -/
def Plane.ofPoint (n a : V3 K) : Plane K := ⟨n, -(n.dot a)⟩
def Plane.ofNumber (n : V3 K) (d : K) : Plane K := ⟨n, d⟩

/-- geopack.l:792 `:distance`, 795 `:plane-distance` -/
def Plane.dist (pl : Plane K) (p : V3 K) : K := p.dot pl.normal + pl.distance

/-- geopack.l:796-797 `:on-plane-p`; eps is the value of *epsilon*. -/
def Plane.onPlane (pl : Plane K) (p : V3 K) (tolerance eps : K) : Bool := epsLe |pl.dist p| tolerance eps

/-- geopack.l:798-799 `:coplanar-point` -/
def Plane.coplanarPoint (pl : Plane K) (p : V3 K) (tolerance : K) : Bool := epsEq (p.dot pl.normal + pl.distance) 0 tolerance

/-- geopack.l:803-811 `:intersection`, with IEEE numbers; none: a quotient by zero. -/
def Plane.intersection (pl : Plane K) (pv nv : V3 K) : Option K :=
  let nn := pl.normal.dot nv
  let np := pl.normal.dot pv
  let npnn := np - nn
  if npnn = 0 then none else some ((pl.distance + np) / npnn)

/-- geopack.l:819-823 `:foot` -/
def Plane.foot (pl : Plane K) (p : V3 K) : V3 K := p.sub (V3.scale (pl.normal.dot p + pl.distance) pl.normal)

/-- geopack.l:830-832 `:project` -/
def Plane.project (pl : Plane K) (p : V3 K) : V3 K := p.sub (V3.scale (pl.distance + p.dot pl.normal) pl.normal)

/-- geopack.l:85-95 `triangle` -/
def triangle (a b c normal : V3 K) : K := (b.sub a).triple (c.sub b) normal

/-- geopack.l:68-72 `vplus` -/
def vplus (vs : List (V3 K)) : V3 K := vs.foldl (fun r v => v.add r) ⟨0, 0, 0⟩

/-- geopack.l:74-76 `vector-mean` -/
def vectorMean (vs : List (V3 K)) : V3 K := V3.scale (1 / (vs.length : K)) (vplus vs)

/-- geopack.l:110-120: what `face-normal-vector` normalizes. -/
def newell (v1 : V3 K) : List (V3 K) → V3 K → V3 K → V3 K
  | [], first, acc => (v1.cross first).add acc
  | v2 :: rest, first, acc => newell v2 rest first ((v1.cross v2).add acc)
def faceNormal0 : List (V3 K) → Option (V3 K)
  | [] => none
  | v :: vs => some (newell v vs v ⟨0, 0, 0⟩)

/-- geopack.l:1050-1051: `vertices` of a polygon made of the vertices v, vs: the last one once more at the front. -/
def closed (v : V3 K) (vs : List (V3 K)) : List (V3 K) := (v :: vs).getLast (by simp) :: v :: vs

/-- geopack.l:919-921: the loop of `:area` -/
def areaLoop (c normal : V3 K) : List (V3 K) → K → K
  | a :: b :: vs, s => areaLoop c normal (b :: vs) (s + triangle a b c normal)
  | _, s => s

/-- geopack.l:917-922 `:area`; vs is the slot vertices. -/
def area (vs : List (V3 K)) (normal : V3 K) : K := areaLoop (vectorMean vs) normal vs 0 / 2

/-- geopack.l:924-927 `:volume` -/
def volume (pl : Plane K) (vs : List (V3 K)) (point : V3 K) : K := pl.dist point * area vs pl.normal / -3

/-- geopack.l:932-936: the loop of `:centroid` -/
def centroidLoop (c normal : V3 K) : List (V3 K) → K × V3 K → K × V3 K
  | a :: b :: vs, (t, g) =>
    let s := triangle a b c normal
    centroidLoop c normal (b :: vs) (t + s, g.add (V3.scale (s / 3) (c.add (a.add b))))
  | _, r => r

/-- geopack.l:928-942 `:centroid` without a point: the area and the centre of gravity; none: a quotient by zero. -/
def centroid (vs : List (V3 K)) (normal : V3 K) : Option (K × V3 K) :=
  let r := centroidLoop (vectorMean vs) normal vs (0, ⟨0, 0, 0⟩)
  if r.1 = 0 then none else some (r.1 / 2, V3.scale (1 / r.1) r.2)

/-- geopack.l:1026-1028: the loop of `:set-convexp` -/
def convexLoop (normal : V3 K) : List (V3 K) → Bool
  | a :: b :: c :: vs => if triangle a b c normal < 0 then false else convexLoop normal (b :: c :: vs)
  | _ => true

/-- geopack.l:1023-1029 `:set-convexp`; vs is the slot vertices. -/
def convexp (vs : List (V3 K)) (normal : V3 K) : Bool := convexLoop normal (vs ++ vs.tail.head?.toList)

/-- geopack.l:1015-1019 `:transform-normal`: (rows of) the rotation and the position of the inverse transformation. -/
def transformNormal (pl : Plane K) (r1 r2 r3 ipos : V3 K) : Plane K :=
  ⟨(V3.scale pl.normal.x r1).add ((V3.scale pl.normal.y r2).add (V3.scale pl.normal.z r3)), pl.distance + ipos.dot pl.normal⟩

/-- geopack.l:141-146 `maxindex` -/
def maxindex (v : V3 K) : Nat :=
  let index := if |v.y| > |v.x| then 1 else 0
  if |v.z| > |if index = 1 then v.y else v.x| then 2 else index

/-! ### grahamhull.l -/

/-- grahamhull.l:2-10 `eliminate-concave-vertex`: the list afterwards, and what is returned; none: not within the fuel. -/
def eliminate (normal : V3 K) : Nat → List (V3 K) → Option (List (V3 K) × Bool)
  | 0, _ => none
  | k + 1, a :: b :: c :: vs =>
    if triangle a b c normal < 0 then (eliminate normal k (a :: c :: vs)).map fun r => (r.1, true)
    else
      match eliminate normal k (b :: c :: vs) with
      | none => none
      | some (l, true) => eliminate normal k (a :: l)
      | some (l, false) => some (a :: l, false)
  | _ + 1, vs => some (vs, false)

end

end Eus.Geo
