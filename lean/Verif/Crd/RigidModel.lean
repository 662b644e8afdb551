import Verif.Crd.Model
import Verif.Mat.Model
import Mathlib.Data.Matrix.Mul
import Mathlib.LinearAlgebra.Matrix.NonsingularInverse
set_option autoImplicit false
/-
lisp/l/coordinates.l: rotation matrices and position vectors; turning and shifting trees of cascaded-coords.  Numbers are taken from a commutative ring, that is, without rounding.
-/
namespace Eus.Crd
open Matrix

/-! ### Storage -/

/-- A coordinates object: its identity, its rot and its pos. -/
structure Coords where
  id : Nat
  rot : Mat.Mtx
  pos : Mat.Vec

section
variable {K : Type} (add mul : K → K → K) (zero : K)

/-- coordinates.l:562-575 `transform-coords`; tmp is the vector made by `(transform rot pos)` when the result is stored in the first argument. -/
def transformCoords (S : Mat.Store K) (c1 c2 c3 : Coords) (tmp : Mat.Vec) : Option (Mat.Store K) :=
  (if c1.id = c3.id then
    (Mat.transformMV add mul zero S c1.rot c2.pos tmp).bind fun S => Mat.vzip add S c1.pos tmp c3.pos
  else
    (Mat.transformMV add mul zero S c1.rot c2.pos c3.pos).bind fun S => Mat.vzip add S c1.pos c3.pos c3.pos).bind fun (S : Mat.Store K) =>
  Mat.mTimes add mul zero S c1.rot c2.rot c3.rot

/-- coordinates.l:113-119 `:inverse-transformation`; minusOne is -1.0. -/
def inverseTransformation (minusOne : K) (S : Mat.Store K) (c dest : Coords) : Option (Mat.Store K) :=
  (Mat.transpose S c.rot dest.rot).bind fun S =>
  (Mat.transformMV add mul zero S dest.rot c.pos dest.pos).bind fun S =>
  Mat.scale mul S minusOne dest.pos dest.pos

/-- coordinates.l:466-475 `:rotate-with-matrix` with wrt :world, on storage: pr is the rotation of the parent, prt the matrix made by `(transpose pr)`. -/
def rotateWorld (S : Mat.Store K) (mat pr prt rot : Mat.Mtx) : Option (Mat.Store K) :=
  (Mat.mTimes add mul zero S mat pr mat).bind fun S => (Mat.transpose S pr prt).bind fun S =>
  (Mat.mTimes add mul zero S prt mat mat).bind fun S => Mat.mTimes add mul zero S mat rot rot

end

/-! ### Rigid motions -/

/-- Rotation (or reflection) and position; what a coordinates holds as long as only rotations are multiplied. -/
@[ext] structure Rigid (d : Nat) (K : Type) [CommRing K] where
  rot : Matrix (Fin d) (Fin d) K
  pos : Fin d → K
  orth : rot * rotᵀ = 1

section
variable {d : Nat} {K : Type} [CommRing K]

theorem Rigid.orth' (a : Rigid d K) : a.rotᵀ * a.rot = 1 := mul_eq_one_comm.1 a.orth

/-- What `transform-coords` computes. -/
instance : Mul (Rigid d K) := ⟨fun a b => ⟨a.rot * b.rot, a.pos + a.rot *ᵥ b.pos, by
  rw [transpose_mul, Matrix.mul_assoc, ← Matrix.mul_assoc b.rot, b.orth, Matrix.one_mul, a.orth]⟩⟩

/-- `*world-coords*` -/
instance : One (Rigid d K) := ⟨⟨1, 0, by simp⟩⟩

/-- What `:inverse-transformation` computes. -/
instance : Inv (Rigid d K) := ⟨fun a => ⟨a.rotᵀ, -(a.rotᵀ *ᵥ a.pos), by rw [transpose_transpose]; exact a.orth'⟩⟩

theorem mul_rot (a b : Rigid d K) : (a * b).rot = a.rot * b.rot := rfl
theorem mul_pos (a b : Rigid d K) : (a * b).pos = a.pos + a.rot *ᵥ b.pos := rfl
theorem one_rot : (1 : Rigid d K).rot = 1 := rfl
theorem one_pos : (1 : Rigid d K).pos = 0 := rfl
theorem inv_rot (a : Rigid d K) : (a⁻¹).rot = a.rotᵀ := rfl
theorem inv_pos (a : Rigid d K) : (a⁻¹).pos = -(a.rotᵀ *ᵥ a.pos) := rfl

/-- Coordinates are a group. -/
instance : Group (Rigid d K) where
  mul_assoc a b c := by
    ext1
    · simp only [mul_rot, Matrix.mul_assoc]
    · simp only [mul_rot, mul_pos, mulVec_add, mulVec_mulVec, add_assoc]
  one_mul a := by
    ext1
    · simp only [mul_rot, one_rot, Matrix.one_mul]
    · simp only [mul_pos, one_rot, one_pos, one_mulVec, zero_add]
  mul_one a := by
    ext1
    · simp only [mul_rot, one_rot, Matrix.mul_one]
    · simp only [mul_pos, one_pos, mulVec_zero, add_zero]
  inv_mul_cancel a := by
    ext1
    · simp only [mul_rot, inv_rot, one_rot, a.orth']
    · simp only [mul_pos, inv_pos, inv_rot, one_pos, neg_add_cancel]

/-- An orthogonal matrix, as an argument. -/
structure Orth (d : Nat) (K : Type) [CommRing K] where
  mat : Matrix (Fin d) (Fin d) K
  orth : mat * matᵀ = 1

/-- coordinates.l:107-109 `:transform-vector` -/
def transformVector (c : Rigid d K) (v : Fin d → K) : Fin d → K := c.rot *ᵥ v + c.pos

/-- coordinates.l:106 `:rotate-vector` -/
def rotateVec (c : Rigid d K) (v : Fin d → K) : Fin d → K := c.rot *ᵥ v

/-- coordinates.l:110-112 `:inverse-transform-vector` -/
def inverseTransformVector (c : Rigid d K) (v : Fin d → K) : Fin d → K := c.rotᵀ *ᵥ v - c.rotᵀ *ᵥ c.pos

/-- The product of orthogonal matrices, for the proofs that go with rotations. -/
theorem orth_mul {a b : Matrix (Fin d) (Fin d) K} (ha : a * aᵀ = 1) (hb : b * bᵀ = 1) : (a * b) * (a * b)ᵀ = 1 := by
  rw [transpose_mul, Matrix.mul_assoc, ← Matrix.mul_assoc b, hb, Matrix.one_mul, ha]

theorem orth_transpose {a : Matrix (Fin d) (Fin d) K} (ha : a * aᵀ = 1) : aᵀ * aᵀᵀ = 1 := by
  rw [transpose_transpose]; exact mul_eq_one_comm.1 ha

/-! ### Turning and shifting cascaded-coords -/

/-- What wrt does in the branches for the world and for other coordinates: its world coordinates. -/
def wrtWorld (k : Nat) (h : Heap (Rigid d K)) : Wrt (Rigid d K) → Option (Option (Rigid d K) × Heap (Rigid d K))
  | .node m => (worldF k h m).map fun q => (some q.1, q.2)
  | .plain x => some (some x, h)
  | _ => some (none, h)

/-- coordinates.l:533-541 `:parent-orientation` -/
def parentOrientation (k : Nat) (h : Heap (Rigid d K)) (n : Nat) (v : Fin d → K) (w : Wrt (Rigid d K)) : Option ((Fin d → K) × Heap (Rigid d K)) :=
  match w.resolve h n with
  | .local => some ((h.loc n).rot *ᵥ v, h)
  | .parent => some (v, h)
  | w => (wrtWorld k h w).bind fun q =>
    let v := q.1.elim v fun x => x.rot *ᵥ v
    match (q.2.node n).parent with
    | some p => (worldF k q.2 p).map fun r => (r.1.rotᵀ *ᵥ v, r.2)
    | none => some (v, q.2)

/-- coordinates.l:525-532 `:parent-vector` -/
def parentVector (k : Nat) (h : Heap (Rigid d K)) (n : Nat) (v : Fin d → K) (w : Wrt (Rigid d K)) : Option ((Fin d → K) × Heap (Rigid d K)) :=
  match w.resolve h n with
  | .local => some (transformVector (h.loc n) v, h)
  | .parent => some (v, h)
  | w => (wrtWorld k h w).bind fun q =>
    let v := q.1.elim v fun x => transformVector x v
    match (q.2.node n).parent with
    | some p => (worldF k q.2 p).map fun r => (inverseTransformVector r.1 v, r.2)
    | none => some (v, q.2)

/-- coordinates.l:226-228 `:translate` -/
def translate (k : Nat) (h : Heap (Rigid d K)) (n : Nat) (v : Fin d → K) (w : Wrt (Rigid d K)) : Option (Heap (Rigid d K)) :=
  (parentOrientation k h n v w).bind fun q => changedF k (q.2.setLoc n { q.2.loc n with pos := q.1 + (q.2.loc n).pos }) n

/-- coordinates.l:229-231 `:locate` -/
def locate (k : Nat) (h : Heap (Rigid d K)) (n : Nat) (v : Fin d → K) (w : Wrt (Rigid d K)) : Option (Heap (Rigid d K)) :=
  (parentVector k h n v w).bind fun q => changedF k (q.2.setLoc n { q.2.loc n with pos := q.1 }) n

/-- Storing into rot. -/
def Rigid.setRot (c : Rigid d K) (m : Orth d K) : Rigid d K := ⟨m.mat, c.pos, m.orth⟩

def Rigid.toOrth (c : Rigid d K) : Orth d K := ⟨c.rot, c.orth⟩
def Orth.mul (a b : Orth d K) : Orth d K := ⟨a.mat * b.mat, orth_mul a.orth b.orth⟩
def Orth.t (a : Orth d K) : Orth d K := ⟨a.matᵀ, orth_transpose a.orth⟩

/-- coordinates.l:458-476 `:rotate-with-matrix`, and 477-493 `:rotate` in three dimensions.  The matrix is not used for anything else: with wrt :world it is overwritten. -/
def rotate (k : Nat) (h : Heap (Rigid d K)) (n : Nat) (mat : Orth d K) (w : Wrt (Rigid d K)) : Option (Heap (Rigid d K)) :=
  match w.resolve h n with
  | .local => changedF k (h.setLoc n ((h.loc n).setRot ((h.loc n).toOrth.mul mat))) n
  | .parent => changedF k (h.setLoc n ((h.loc n).setRot (mat.mul (h.loc n).toOrth))) n
  | w => (parentcoords k h n).bind fun pc => (wrtWorld k pc.2 w).bind fun q =>
    let mat := q.1.elim mat fun x => (x.toOrth.mul mat).mul x.toOrth.t
    let mat := mat.mul pc.1.toOrth
    let mat := pc.1.toOrth.t.mul mat
    changedF k (q.2.setLoc n ((q.2.loc n).setRot (mat.mul (q.2.loc n).toOrth))) n

/-- coordinates.l:494-509 `:orient-with-matrix`, and 510-524 `:orient` in three dimensions.  The matrix is not used for anything else: with wrt :parent it becomes rot. -/
def orient (k : Nat) (h : Heap (Rigid d K)) (n : Nat) (mat : Orth d K) (w : Wrt (Rigid d K)) : Option (Heap (Rigid d K)) :=
  match w.resolve h n with
  | .local => changedF k (h.setLoc n ((h.loc n).setRot ((h.loc n).toOrth.mul mat))) n
  | .parent => changedF k (h.setLoc n ((h.loc n).setRot mat)) n
  | w => (parentcoords k h n).bind fun pc => (wrtWorld k pc.2 w).bind fun q =>
    let mat := q.1.elim mat fun x => x.toOrth.mul mat
    changedF k (q.2.setLoc n ((q.2.loc n).setRot (pc.1.toOrth.t.mul mat))) n

/-- What programs do with cascaded-coords, with rotations and translations. -/
inductive ROp (d : Nat) (K : Type) [CommRing K] where
  | op (o : Op (Rigid d K))
  | translate (n : Nat) (v : Fin d → K) (w : Wrt (Rigid d K))
  | locate (n : Nat) (v : Fin d → K) (w : Wrt (Rigid d K))
  | rotate (n : Nat) (m : Orth d K) (w : Wrt (Rigid d K))
  | orient (n : Nat) (m : Orth d K) (w : Wrt (Rigid d K))
  | transformVector (n : Nat) (v : Fin d → K)
  | inverseTransformVector (n : Nat) (v : Fin d → K)

/-- What is returned. -/
inductive Value (d : Nat) (K : Type) [CommRing K] where
  | coords (c : Rigid d K)
  | vec (v : Fin d → K)

/-- coordinates.l:392-393, 396-397 for `:transform-vector` and `:inverse-transform-vector` -/
def rstep (k : Nat) (h : Heap (Rigid d K)) : ROp d K → Option (Option (Value d K) × Heap (Rigid d K))
  | .op o => (step k h o).map fun q => (q.1.map .coords, q.2)
  | .translate n v w => (translate k h n v w).map fun h => (none, h)
  | .locate n v w => (locate k h n v w).map fun h => (none, h)
  | .rotate n m w => (rotate k h n m w).map fun h => (none, h)
  | .orient n m w => (orient k h n m w).map fun h => (none, h)
  | .transformVector n v => (worldF k h n).map fun q => (some (.vec (transformVector q.1 v)), q.2)
  | .inverseTransformVector n v => (worldF k h n).map fun q => (some (.vec (inverseTransformVector q.1 v)), q.2)

def rrun (k : Nat) (h : Heap (Rigid d K)) : List (ROp d K) → Option (List (Option (Value d K)) × Heap (Rigid d K))
  | [] => some ([], h)
  | op :: ops => (rstep k h op).bind fun q => (rrun k q.2 ops).map fun r => (q.1 :: r.1, r.2)

end
end Eus.Crd
