import Verif.Brp.Model
set_option autoImplicit false
/-
What a closed surface of faces is.
-/
namespace Eus.Brp

/-- The sides of a face, given by its corners in order: from each corner to the next, first from the last to
the first. -/
def sides {V : Type} (vs : List V) : List (V × V) :=
  match vs.getLast? with
  | none => []
  | some l => (l :: vs).zip vs

/-- Faces that fit together: none has no corner, no side is gone along twice in the same direction, and no
face goes along a side in both directions (nor from a corner to itself). -/
structure Fit {V : Type} (fs : List (List V)) : Prop where
  corners : ∀ vs ∈ fs, vs ≠ []
  once : (fs.flatMap sides).Nodup
  oneway : ∀ vs ∈ fs, ∀ a b, (a, b) ∈ sides vs → (b, a) ∉ sides vs

/-- No open borders: beside each side of a face there is a face that goes along it in the other direction. -/
def Closed {V : Type} (fs : List (List V)) : Prop :=
  ∀ a b, (a, b) ∈ fs.flatMap sides → (b, a) ∈ fs.flatMap sides

/-- The edge `e` is the side from `a` to `b` of the face `k`. -/
def Edge.IsSide {V : Type} (e : Edge V) (k : Nat) (a b : V) : Prop :=
  (e.pv = a ∧ e.nv = b ∧ e.pf = some k) ∨ (e.pv = b ∧ e.nv = a ∧ e.nf = some k)

/-- The faces and edges in the store are those of the faces with the corners `fs`. -/
structure Brep {V : Type} (fs : List (List V)) (st : St V) : Prop where
  /-- Each face has its corners, beginning with the last, and its edges: one for each side, in order. -/
  faces : st.faces.length = fs.length
  face : ∀ (k : Nat) (vs : List V), fs[k]? = some vs → ∃ es, st.faces[k]? = some (es, (vs.getLast? :: vs.map some)) ∧
    es.length = vs.length ∧
    ∀ (j : Nat) (i : Nat) (a b : V), es[j]? = some i → (sides vs)[j]? = some (a, b) →
      ∃ e, st.edges[i]? = some e ∧ e.IsSide k a b
  /-- Each edge is between two different points, is a side of its first face, and of its second if it has
  one; it has one if another face goes along it. -/
  ends : ∀ (i : Nat) (e : Edge V), st.edges[i]? = some e → e.pv ≠ e.nv
  pface : ∀ (i : Nat) (e : Edge V), st.edges[i]? = some e →
    ∃ k vs, e.pf = some k ∧ fs[k]? = some vs ∧ (e.pv, e.nv) ∈ sides vs
  nface : ∀ (i : Nat) (e : Edge V), st.edges[i]? = some e → ∀ k,
    e.nf = some k ↔ ∃ vs, fs[k]? = some vs ∧ (e.nv, e.pv) ∈ sides vs
  /-- No two edges are between the same points. -/
  single : ∀ (i j : Nat) (e e' : Edge V), st.edges[i]? = some e → st.edges[j]? = some e' →
    (e.pv = e'.pv ∧ e.nv = e'.nv ∨ e.pv = e'.nv ∧ e.nv = e'.pv) → i = j

/-- A surface without borders: besides, every edge has two faces, and they are different. -/
structure Solid {V : Type} (fs : List (List V)) (st : St V) : Prop extends Brep fs st where
  two : ∀ (i : Nat) (e : Edge V), st.edges[i]? = some e → ∃ k k', e.pf = some k ∧ e.nf = some k' ∧ k ≠ k'

/-- A contour to be turned round the axis: rings with the same number `n` of vertices, maybe with a pole before
and maybe one behind; at least two points; no vertex in two places. -/
def Contour {V : Type} (n : Nat) (start : Option V) (rings : List (List V)) (stop : Option V) : Prop :=
  rings ≠ [] ∧ (∀ r ∈ rings, r.length = n) ∧ (start.toList ++ rings.flatten ++ stop.toList).Nodup ∧
  2 ≤ start.toList.length + rings.length + stop.toList.length

/-- The points of a contour, in order. -/
def items {V : Type} (start : Option V) (rings : List (List V)) (stop : Option V) : List (Item V) :=
  start.toList.map .pole ++ rings.map .ring ++ stop.toList.map .pole

end Eus.Brp
