import Mathlib.Analysis.SpecialFunctions.Trigonometric.Basic
import Mathlib.Analysis.SpecialFunctions.Sqrt
import Mathlib.LinearAlgebra.Matrix.Notation
import Mathlib.LinearAlgebra.Matrix.Determinant.Basic
set_option autoImplicit false
/-
What the angles of a rotation are, in terms of Mathlib's matrices.
-/
namespace Eus.Rpy.Spec

/-- Rotations: orthogonal matrices of determinant 1. -/
def IsRot {n : Nat} (M : Matrix (Fin n) (Fin n) ℝ) : Prop := M * M.transpose = 1 ∧ M.det = 1

/-- Rotations about the three axes -/
noncomputable def X (t : ℝ) : Matrix (Fin 3) (Fin 3) ℝ := !![1, 0, 0; 0, Real.cos t, -Real.sin t; 0, Real.sin t, Real.cos t]
noncomputable def Y (t : ℝ) : Matrix (Fin 3) (Fin 3) ℝ := !![Real.cos t, 0, Real.sin t; 0, 1, 0; -Real.sin t, 0, Real.cos t]
noncomputable def Z (t : ℝ) : Matrix (Fin 3) (Fin 3) ℝ := !![Real.cos t, -Real.sin t, 0; Real.sin t, Real.cos t, 0; 0, 0, 1]

/-- Rotation about the axis (x,y,z) of length 1, after Rodrigues: cos t I + sin t K + (1 - cos t) k kᵀ -/
noncomputable def About (t x y z : ℝ) : Matrix (Fin 3) (Fin 3) ℝ :=
  Real.cos t • (1 : Matrix (Fin 3) (Fin 3) ℝ) + Real.sin t • !![0, -z, y; z, 0, -x; -y, x, 0] +
    (1 - Real.cos t) • !![x * x, x * y, x * z; y * x, y * y, y * z; z * x, z * y, z * z]

/-- What is known of the function atan2 of C: the angle of (x,y) ≠ (0,0), between -π and π.  Nothing is said of (0,0), nor which of -π and π is answered on the cut, for that depends on the sign of zero. -/
structure IsAtan2 (f : ℝ → ℝ → ℝ) : Prop where
  low : ∀ y x, -Real.pi ≤ f y x
  high : ∀ y x, f y x ≤ Real.pi
  cosine : ∀ y x, (x ≠ 0 ∨ y ≠ 0) → Real.sqrt (x * x + y * y) * Real.cos (f y x) = x
  sine : ∀ y x, (x ≠ 0 ∨ y ≠ 0) → Real.sqrt (x * x + y * y) * Real.sin (f y x) = y

/-- The elements of an array as a matrix -/
def mat (n : Nat) (m : Nat → Nat → ℝ) : Matrix (Fin n) (Fin n) ℝ := Matrix.of fun i j => m i j

end Eus.Rpy.Spec
