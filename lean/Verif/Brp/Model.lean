set_option autoImplicit false
/-
Making solid bodies out of faces (lisp/geo/primt.l:193-218, 442-572; lisp/geo/geopack.l, geobody.l).
A vertex is the list (point edge1 edge2 ...): a point with the edges that end in it; an edge has two end
points and two faces.  Only who touches whom is modelled here: points are values of a type `V` (`eq` of
points is equality), their coordinates, normals and angles are left out.
Faces and edges are numbered in the order they are made in.
-/
namespace Eus.Brp

/-- geoclasses.l, class `edge`: slots pvert, nvert, pface, nface. -/
structure Edge (V : Type) where
  pv : V
  nv : V
  pf : Option Nat
  nf : Option Nat

/-- The edges made so far, the edges in the list of each vertex, and the faces made so far: the edges and the
vertices of each. -/
structure St (V : Type) where
  edges : List (Edge V)
  inc : V → List Nat
  faces : List (List Nat × List (Option V))

def St.empty (V : Type) : St V := ⟨[], fun _ => [], []⟩

variable {V : Type} [DecidableEq V]

/-- primt.l:204 `(car (intersection e1 e2))`; common.l:400-406 `intersection` collects by consing. -/
def common (e1 e2 : List Nat) : Option Nat :=
  (e1.foldl (fun r i => if i ∈ e2 then i :: r else r) []).head?

/-- geopack.l:648-652 edge `:set-face`; `none` is the error. -/
def setFace (e : Edge V) (pv nv : V) (f : Nat) : Option (Edge V) :=
  if pv = e.pv ∧ nv = e.nv then some { e with pf := some f }
  else if nv = e.pv ∧ pv = e.nv then some { e with nf := some f }
  else none

/-- primt.l:210 `(nconc v (list e))`. -/
def addInc (inc : V → List Nat) (v : V) (e : Nat) : V → List Nat :=
  fun w => if w = v then inc w ++ [e] else inc w

/-- primt.l:201-214, the body of the loop in `make-face-from-vertices`: the edge from `v1` to `v2` of the
face `f`. -/
def link (st : St V) (f : Nat) (v1 v2 : V) : Option (St V × Nat) :=
  match common (st.inc v1) (st.inc v2) with
  | none =>
    let e := st.edges.length
    some ({ st with edges := st.edges ++ [⟨v1, v2, some f, none⟩],
                    inc := addInc (addInc st.inc v1 e) v2 e }, e)
  | some e =>
    match st.edges[e]? with
    | none => none
    | some x =>
      match setFace x v1 v2 f with
      | none => none
      | some x => some ({ st with edges := st.edges.set e x }, e)

/-- primt.l:201-215, the loop; the edges in the order of line 216 (`nreverse` is in place). -/
def links (st : St V) (f : Nat) : V → List V → Option (St V × List Nat)
  | _, [] => some (st, [])
  | v1, v2 :: r =>
    match link st f v1 v2 with
    | none => none
    | some (st, e) =>
      match links st f v2 r with
      | none => none
      | some (st, es) => some (st, e :: es)

/-- geopack.l:573-576 edge `:pvertex`; `none` is the error. -/
def Edge.pvertex (e : Edge V) (f : Nat) : Option V :=
  if e.pf = some f then some e.pv else if e.nf = some f then some e.nv else none

/-- geopack.l:577-580 edge `:nvertex`. -/
def Edge.nvertex (e : Edge V) (f : Nat) : Option V :=
  if e.pf = some f then some e.nv else if e.nf = some f then some e.pv else none

/-- geopack.l:1042-1048, polygon `:init` with edges: the vertices of the face. -/
def vertices (edges : List (Edge V)) (f : Nat) (es : List Nat) : List (Option V) :=
  match es with
  | [] => []
  | e :: _ => (edges[e]?.bind fun x => x.pvertex f) :: es.map fun i => edges[i]?.bind fun x => x.nvertex f

/-- primt.l:193-218 `make-face-from-vertices`. -/
def makeFace (st : St V) (vs : List V) : Option (St V) :=
  match vs.getLast? with
  | none => none
  | some v1 =>
    match links st st.faces.length v1 vs with
    | none => none
    | some (st, es) => some { st with faces := st.faces ++ [(es, vertices st.edges st.faces.length es)] }

/-- Faces made one after the other. -/
def makeFaces (st : St V) : List (List V) → Option (St V)
  | [] => some st
  | vs :: r =>
    match makeFace st vs with
    | none => none
    | some st => makeFaces st r

/-- sequence.c:681-722 `remove-duplicates` of a list: an element is left out if it comes again later. -/
def removeDuplicates {α : Type} [DecidableEq α] : List α → List α
  | [] => []
  | x :: r => if x ∈ r then removeDuplicates r else x :: removeDuplicates r

/-- geobody.l:181-182: the edges of a body with these faces. -/
def bodyEdges (faces : List (List Nat × List (Option V))) : List Nat :=
  removeDuplicates (faces.map (·.1)).flatten

/-- geobody.l:183-184: the vertices of a body with these faces. -/
def bodyVertices (faces : List (List Nat × List (Option V))) : List (Option V) :=
  removeDuplicates (faces.map (·.2)).flatten

/-! ### the primitive bodies: the vertices of the faces, in the order the faces are made -/

/-- primt.l:449-464, the loop of `make-side-faces`; `tf` and `bf` are the first vertices. -/
def sideLoop (tf bf : V) : List V → List V → List (List V)
  | t :: ts, b :: bs => [b, bs.headD bf, ts.headD tf, t] :: sideLoop tf bf ts bs
  | _, _ => []

/-- primt.l:449-464 `make-side-faces`, for lists of the same length. -/
def sideFaces (tops bottoms : List V) : List (List V) :=
  match tops, bottoms with
  | t :: ts, b :: bs => sideLoop t b (t :: ts) (b :: bs)
  | _, _ => []

/-- primt.l:466-481 `make-prism`: `nreverse` turns the list of the top vertices round in place. -/
def prism (bottoms tops : List V) : List (List V) :=
  tops.reverse :: sideFaces tops.reverse bottoms.reverse ++ [bottoms]

/-- primt.l:488-500, the loop of `make-conic-side-faces`. -/
def conicLoop (top first : V) : List V → List (List V)
  | [] => []
  | b :: bs => [b, top, bs.headD first] :: conicLoop top first bs

/-- primt.l:488-500 `make-conic-side-faces`. -/
def conicFaces (top : V) (bottoms : List V) : List (List V) :=
  match bottoms with
  | [] => []
  | b :: bs => conicLoop top b (b :: bs)

/-- primt.l:502-517 `make-cone`. -/
def cone (top : V) (bottoms : List V) : List (List V) := bottoms :: conicFaces top bottoms

/-- primt.l:563-567, the loop of `make-torus`, with 568. -/
def torusLoop (first : List V) : List V → List (List V) → List (List V)
  | v, [] => sideFaces v first
  | v, w :: r => sideFaces v w ++ torusLoop first w r

/-- primt.l:556-568 `make-torus`, for the rings of vertices that come from turning each point. -/
def torus (rings : List (List V)) : List (List V) :=
  match rings with
  | [] => []
  | v :: r => torusLoop v v r

/-- A point of the contour turned round the z-axis: one on the axis stays one vertex, another gives a ring. -/
inductive Item (V : Type) where
  | pole (v : V)
  | ring (vs : List V)

/-- primt.l:534-547, the loop of `make-solid-of-revolution`, with the last face (548-549); `first`: the item
is the first one, so that no edge ends in it yet.  A pole with edges in its list is taken for a ring
(`none`: errors and nonsense). -/
def revLoop (first : Bool) : Item V → List (Item V) → Option (List (List V))
  | .ring v, [] => if first then some [] else some [v.reverse]
  | .pole _, [] => some []
  | .ring v, .ring w :: r => (revLoop false (.ring w) r).map (sideFaces v w ++ ·)
  | .ring v, .pole p :: r => (revLoop false (.pole p) r).map (conicFaces p v ++ ·)
  | .pole p, .ring w :: r =>
    if first then (revLoop false (.ring w) r).map (conicFaces p w.reverse ++ ·) else none
  | .pole _, .pole _ :: _ => none

/-- primt.l:524-549 `make-solid-of-revolution`, for rings of at least two vertices. -/
def revolution : List (Item V) → Option (List (List V))
  | [] => none
  | .ring v :: r => (revLoop true (.ring v) r).map (v :: ·)
  | .pole p :: r => revLoop true (.pole p) r

end Eus.Brp
