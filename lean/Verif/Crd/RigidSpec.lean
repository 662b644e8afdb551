import Verif.Crd.RigidModel
import Verif.Crd.Spec
import Verif.Mat.Spec
set_option autoImplicit false
/-
What turning and shifting should do to places in the world; what it means that a coordinates object in storage holds a rigid motion.
-/
namespace Eus.Crd
open Matrix

variable {d : Nat} {K : Type} [CommRing K]

/-- The point of the world that c calls v. -/
def Rigid.point (c : Rigid d K) (v : Fin d → K) : Fin d → K := c.pos + c.rot *ᵥ v

/-- The rotation m, by its effect: turned r in the directions of c. -/
def turned (c : Rigid d K) (m : Matrix (Fin d) (Fin d) K) : Matrix (Fin d) (Fin d) K := c.rot * m * c.rotᵀ

/-- n gets the rotation r and the position p in the world; everything attached to it moves with it, nothing else moves. -/
def Placed (v v' : View (Rigid d K)) (n : Nat) (r : Matrix (Fin d) (Fin d) K) (p : Fin d → K) : Prop :=
  ∃ g : Rigid d K, g.rot = r ∧ g.pos = p ∧ Moved v v' n g

/-- What each operation does and returns. -/
def RDoes (v : View (Rigid d K)) : ROp d K → Option (Value d K) → View (Rigid d K) → Prop
  | .op o, r, v' => ∃ r', r = r'.map .coords ∧ Does v o r' v'
  | .translate n u w, r, v' => r = none ∧ Placed v v' n (v.world n).rot ((v.world n).pos + (v.wrt n w).rot *ᵥ u)
  | .locate n u w, r, v' => r = none ∧ Placed v v' n (v.world n).rot ((v.wrt n w).point u)
  | .rotate n m w, r, v' => r = none ∧ Placed v v' n (turned (v.wrt n w) m.mat * (v.world n).rot) (v.world n).pos
  | .orient n m w, r, v' => r = none ∧ Placed v v' n ((v.wrt n w).rot * m.mat) (v.world n).pos
  | .transformVector n u, r, v' => r = some (.vec ((v.world n).point u)) ∧ v' = v
  | .inverseTransformVector n u, r, v' => (∃ u', r = some (.vec u') ∧ (v.world n).point u' = u) ∧ v' = v

def RAllowed (v : View (Rigid d K)) : ROp d K → Prop
  | .op o => Allowed v o
  | _ => True

/-- The values a program returns, and the last view. -/
inductive RRuns : View (Rigid d K) → List (ROp d K) → List (Option (Value d K)) → View (Rigid d K) → Prop where
  | nil (v : View (Rigid d K)) : RRuns v [] [] v
  | cons {v v1 v2 : View (Rigid d K)} {op : ROp d K} {ops : List (ROp d K)} {r : Option (Value d K)} {rs : List (Option (Value d K))} :
      RAllowed v op → RDoes v op r v1 → RRuns v1 ops rs v2 → RRuns v (op :: ops) (r :: rs) v2

/-- The coordinates object has dimension d, and holds g. -/
structure Holds (c : Coords) (S : Mat.Store K) (g : Rigid d K) : Prop where
  rows : c.rot.rows = d
  cols : c.rot.cols = d
  size : c.pos.size = d
  rot : ∀ i j : Fin d, c.rot.at S i j = g.rot i j
  pos : ∀ i : Fin d, S c.pos.ent i = g.pos i

/-- Different coordinates objects, sharing nothing. -/
def Apart (c c' : Coords) : Prop := c.id ≠ c'.id ∧ c.rot.id ≠ c'.rot.id ∧ c.rot.ent ≠ c'.rot.ent ∧ c.pos.ent ≠ c'.pos.ent

/-- The vectors of coordinates objects are not the entities of their matrices. -/
def Sound (cs : List Coords) : Prop := ∀ c ∈ cs, ∀ c' ∈ cs, c.rot.ent ≠ c'.pos.ent

end Eus.Crd
