import Mathlib.Analysis.SpecialFunctions.Trigonometric.Basic
import Mathlib.Analysis.SpecialFunctions.Sqrt
set_option autoImplicit false
/-
lib/llib/quaternion.l.  Simplification: numbers are real numbers, without rounding; a quaternion is its pair of
slots, and a method that stores into `self` returns the new quaternion.  Methods that print are left out.
-/
namespace Eus.Qua

/-- A float-vector of three elements. -/
@[ext] structure V3 where
  x : ℝ
  y : ℝ
  z : ℝ

/-- matrix.c:110-143 `v+`, `v-` with two and one arguments, `scale`, `v.`, `v*` for three elements. -/
def vadd (a b : V3) : V3 := ⟨a.x + b.x, a.y + b.y, a.z + b.z⟩
def vsub (a b : V3) : V3 := ⟨a.x - b.x, a.y - b.y, a.z - b.z⟩
def vneg (a : V3) : V3 := ⟨-a.x, -a.y, -a.z⟩
def scale (k : ℝ) (a : V3) : V3 := ⟨k * a.x, k * a.y, k * a.z⟩
def dot (a b : V3) : ℝ := a.x * b.x + a.y * b.y + a.z * b.z
def cross (a b : V3) : V3 := ⟨a.y * b.z - a.z * b.y, a.z * b.x - a.x * b.z, a.x * b.y - a.y * b.x⟩
/-- matrix.c `norm`, `normalize-vector` (of a vector that is not zero). -/
noncomputable def vnorm (a : V3) : ℝ := Real.sqrt (dot a a)
noncomputable def normalize (a : V3) : V3 := scale (1 / vnorm a) a

/-- quaternion.l:9-10, the slots. -/
@[ext] structure Quat where
  s : ℝ
  a : V3

/-- quaternion.l:15-17 `:init`. -/
noncomputable def init (ss : ℝ) (aa : V3) : Quat := ⟨ss, scale (Real.sqrt (1 - ss * ss)) (normalize aa)⟩

/-- quaternion.l:18 `:norm`. -/
noncomputable def norm (q : Quat) : ℝ := Real.sqrt (q.s * q.s + dot q.a q.a)

/-- quaternion.l:19 `:conjugate`. -/
def conjugate (q : Quat) : Quat := ⟨q.s, vneg q.a⟩

/-- quaternion.l:20-22 `:inverse-quaternion`. -/
noncomputable def inverseQuaternion (q : Quat) : Quat := ⟨q.s / norm q, scale (1 / norm q) (vneg q.a)⟩

/-- quaternion.l:23-24 `:rotation`. -/
noncomputable def rotation (theta : ℝ) (axis : V3) : Quat := init (Real.cos (theta / 2)) axis

/-- quaternion.l:25-28 `:inverse-transform-vector`. -/
def inverseTransform (q : Quat) (v : V3) : V3 :=
  vadd (vsub (scale (2 * q.s * q.s - 1) v) (scale (2 * q.s) (cross q.a v))) (scale (2 * dot q.a v) q.a)

/-- quaternion.l:29-32 `:transform-vector`.  It calls `v++`, which is defined nowhere in the repository: `vpp` is
its definition, if the program has one. -/
def transform (vpp : Option (V3 → V3 → V3 → V3)) (q : Quat) (r : V3) : Option V3 :=
  vpp.map fun f => f (scale (2 * q.s * q.s - 1) r) (scale (2 * dot q.a r) q.a) (scale (2 * q.s) (cross q.a r))

/-- quaternion.l:35-40 `:concat`. -/
def concat (self q : Quat) : Quat :=
  ⟨self.s * q.s - dot self.a q.a, vadd (vadd (scale self.s q.a) (scale q.s self.a)) (cross self.a q.a)⟩

/-- quaternion.l:46-52 `q*`. -/
def qmul (q1 q2 : Quat) : Quat :=
  ⟨q1.s * q2.s - dot q1.a q2.a, vadd (vadd (scale q1.s q2.a) (scale q2.s q1.a)) (cross q1.a q2.a)⟩

end Eus.Qua
