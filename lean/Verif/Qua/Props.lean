import Verif.Qua.Model
import Mathlib.Analysis.Quaternion
import Mathlib.Tactic.LinearCombination
set_option autoImplicit false
/-! Property C120: quaternions. -/
namespace Eus.Qua

/-- The quaternion of mathematics. -/
def Quat.toH (q : Quat) : Quaternion ℝ := ⟨q.s, q.a.x, q.a.y, q.a.z⟩
/-- A vector as a quaternion without real part. -/
def V3.toH (v : V3) : Quaternion ℝ := ⟨0, v.x, v.y, v.z⟩

@[simp] theorem Quat.re_toH (q : Quat) : q.toH.re = q.s := rfl
@[simp] theorem Quat.imI_toH (q : Quat) : q.toH.imI = q.a.x := rfl
@[simp] theorem Quat.imJ_toH (q : Quat) : q.toH.imJ = q.a.y := rfl
@[simp] theorem Quat.imK_toH (q : Quat) : q.toH.imK = q.a.z := rfl
@[simp] theorem V3.re_toH (q : V3) : q.toH.re = 0 := rfl
@[simp] theorem V3.imI_toH (q : V3) : q.toH.imI = q.x := rfl
@[simp] theorem V3.imJ_toH (q : V3) : q.toH.imJ = q.y := rfl
@[simp] theorem V3.imK_toH (q : V3) : q.toH.imK = q.z := rfl

/-- The rotation of `v` by `theta` about the unit vector `k` (Rodrigues' formula). -/
noncomputable def rodrigues (theta : ℝ) (k v : V3) : V3 :=
  vadd (vadd (scale (Real.cos theta) v) (scale (Real.sin theta) (cross k v))) (scale ((1 - Real.cos theta) * dot k v) k)

/-- `q*` and `:concat` are multiplication of quaternions, `:conjugate` is conjugation. -/
theorem C120_product (p q : Quat) :
    (qmul p q).toH = p.toH * q.toH ∧ concat p q = qmul p q ∧ (conjugate q).toH = star q.toH := by
  refine ⟨?_, rfl, ?_⟩
  · ext <;> simp [qmul, dot, vadd, scale, cross] <;> ring
  · ext <;> simp [conjugate, vneg]

/-- `:norm` is the absolute value, and multiplicative. -/
theorem C120_norm (p q : Quat) : norm p = ‖p.toH‖ ∧ norm (qmul p q) = norm p * norm q := by
  have h : ∀ p : Quat, norm p = ‖p.toH‖ := by
    intro p
    rw [norm, ← Real.sqrt_sq (norm_nonneg p.toH)]
    congr 1
    rw [sq, ← Quaternion.normSq_eq_norm_mul_self, Quaternion.normSq_def']
    simp [dot]; ring
  refine ⟨h p, ?_⟩
  rw [h, h, h, (C120_product p q).1, norm_mul]

/-- For a unit quaternion `:inverse-transform-vector` is v ↦ q⁻¹ v q; it keeps inner products; products of
quaternions are compositions; the conjugate undoes it. -/
theorem C120_inverse_transform (p q : Quat) (hp : p.s * p.s + dot p.a p.a = 1) (hq : q.s * q.s + dot q.a q.a = 1)
    (v w : V3) :
    (inverseTransform q v).toH = star q.toH * v.toH * q.toH ∧
    dot (inverseTransform q v) (inverseTransform q w) = dot v w ∧
    inverseTransform (qmul p q) v = inverseTransform q (inverseTransform p v) ∧
    inverseTransform (conjugate q) (inverseTransform q v) = v := by
  have key : ∀ q : Quat, q.s * q.s + dot q.a q.a = 1 → ∀ v : V3,
      (inverseTransform q v).toH = star q.toH * v.toH * q.toH := by
    intro q hq v
    have e : dot q.a q.a = 1 - q.s * q.s := by linarith
    simp only [dot] at e
    ext
    · simp; ring
    · simp [inverseTransform, vadd, vsub, scale, cross, dot]
      linear_combination v.x * e
    · simp [inverseTransform, vadd, vsub, scale, cross, dot]
      linear_combination v.y * e
    · simp [inverseTransform, vadd, vsub, scale, cross, dot]
      linear_combination v.z * e
  have inj : ∀ a b : V3, a.toH = b.toH → a = b := by
    intro a b h
    have h1 := congrArg QuaternionAlgebra.imI h
    have h2 := congrArg QuaternionAlgebra.imJ h
    have h3 := congrArg QuaternionAlgebra.imK h
    exact V3.ext h1 h2 h3
  have unit : ∀ q : Quat, q.s * q.s + dot q.a q.a = 1 → star q.toH * q.toH = 1 ∧ q.toH * star q.toH = 1 := by
    intro q hq
    have : Quaternion.normSq q.toH = 1 := by
      rw [Quaternion.normSq_def']; simp; simp only [dot] at hq; linarith
    constructor
    · rw [Quaternion.star_mul_self, this]; simp
    · rw [Quaternion.self_mul_star, this]; simp
  have hpq : (qmul p q).s * (qmul p q).s + dot (qmul p q).a (qmul p q).a = 1 := by
    have : (qmul p q).s * (qmul p q).s + dot (qmul p q).a (qmul p q).a
      = (p.s * p.s + dot p.a p.a) * (q.s * q.s + dot q.a q.a) := by
      simp [qmul, dot, vadd, scale, cross]; ring
    rw [this, hp, hq, one_mul]
  have hc : (conjugate q).s * (conjugate q).s + dot (conjugate q).a (conjugate q).a = 1 := by
    rw [← hq]; simp [conjugate, dot, vneg]
  refine ⟨key q hq v, ?_, ?_, ?_⟩
  · simp only [inverseTransform, vadd, vsub, scale, cross, dot] at hq ⊢
    have e : q.s ^ 2 = 1 - (q.a.x * q.a.x + q.a.y * q.a.y + q.a.z * q.a.z) := by linarith
    have e4 : q.s ^ 4 = (1 - (q.a.x * q.a.x + q.a.y * q.a.y + q.a.z * q.a.z)) ^ 2 := by rw [← e]; ring
    ring_nf
    rw [e4, e]
    ring
  · apply inj
    rw [key _ hpq, key _ hq, key _ hp, (C120_product p q).1, star_mul]
    simp only [mul_assoc]
  · apply inj
    rw [key _ hc, key _ hq, (C120_product q q).2.2, star_star]
    have := unit q hq
    calc q.toH * (star q.toH * v.toH * q.toH) * star q.toH
        = (q.toH * star q.toH) * v.toH * (q.toH * star q.toH) := by simp only [mul_assoc]
      _ = v.toH := by rw [this.2]; simp

/-- `:rotation` makes a unit quaternion, and transforming by it backwards turns by -theta about the axis, for
angles from 0 to 2 pi (the restriction stated in the file).  What is missing: see `C120_negative_angle_wrong`. -/
theorem C120_rotation_partial (theta : ℝ) (h0 : 0 ≤ theta) (h1 : theta ≤ 2 * Real.pi) (axis : V3)
    (ha : 0 < dot axis axis) (v : V3) :
    (rotation theta axis).s * (rotation theta axis).s + dot (rotation theta axis).a (rotation theta axis).a = 1 ∧
    inverseTransform (rotation theta axis) v = rodrigues (-theta) (normalize axis) v := by
  have hs : Real.sqrt (1 - Real.cos (theta / 2) * Real.cos (theta / 2)) = Real.sin (theta / 2) := by
    have : 1 - Real.cos (theta / 2) * Real.cos (theta / 2) = Real.sin (theta / 2) ^ 2 := by
      have := Real.sin_sq_add_cos_sq (theta / 2); linarith
    rw [this, Real.sqrt_sq]
    exact Real.sin_nonneg_of_nonneg_of_le_pi (by linarith) (by linarith)
  have hk : dot (normalize axis) (normalize axis) = 1 := by
    have hn : vnorm axis ^ 2 = dot axis axis := Real.sq_sqrt ha.le
    have hn0 : vnorm axis ≠ 0 := fun h => by rw [h] at hn; simp at hn; linarith
    have : dot (normalize axis) (normalize axis) = (1 / vnorm axis) ^ 2 * dot axis axis := by
      simp [normalize, dot, scale]; ring
    rw [this, ← hn]; field_simp
  generalize hkk : normalize axis = k at *
  have hr : rotation theta axis = ⟨Real.cos (theta / 2), scale (Real.sin (theta / 2)) k⟩ := by
    simp only [rotation, init, hs, hkk]
  have hc : Real.cos theta = 2 * Real.cos (theta / 2) * Real.cos (theta / 2) - 1 := by
    have := Real.cos_two_mul (theta / 2); rw [show 2 * (theta / 2) = theta by ring] at this; linarith
  have hsn : Real.sin theta = 2 * Real.sin (theta / 2) * Real.cos (theta / 2) := by
    have := Real.sin_two_mul (theta / 2); rwa [show 2 * (theta / 2) = theta by ring] at this
  have hcs := Real.sin_sq_add_cos_sq (theta / 2)
  rw [hr]
  refine ⟨?_, ?_⟩
  · have : dot (scale (Real.sin (theta / 2)) k) (scale (Real.sin (theta / 2)) k) = Real.sin (theta / 2) ^ 2 * dot k k := by
      simp [dot, scale]; ring
    simp only [this, hk]; linarith
  · have hh : 1 - (2 * Real.cos (theta / 2) * Real.cos (theta / 2) - 1) = 2 * Real.sin (theta / 2) ^ 2 := by linarith
    simp only [rodrigues, Real.cos_neg, Real.sin_neg, hc, hsn, hh]
    ext <;> simp [inverseTransform, vadd, vsub, scale, cross, dot] <;> ring

/-- With a negative angle the quaternion turns the wrong way: the sign of the angle is lost. -/
theorem C120_negative_angle_wrong (theta : ℝ) (axis : V3) : rotation (-theta) axis = rotation theta axis := by
  simp only [rotation, neg_div, Real.cos_neg]

/-- `:inverse-quaternion` inverts unit quaternions only. -/
theorem C120_inverse_quaternion_partial (q : Quat) (hq : q.s * q.s + dot q.a q.a = 1) :
    qmul q (inverseQuaternion q) = ⟨1, ⟨0, 0, 0⟩⟩ := by
  have : norm q = 1 := by rw [norm, hq, Real.sqrt_one]
  simp only [inverseQuaternion, this]
  ext
  · simp [qmul, dot, scale, vneg]; simp only [dot] at hq; linarith
  · simp [qmul, vadd, scale, vneg, cross]; ring
  · simp [qmul, vadd, scale, vneg, cross]; ring
  · simp [qmul, vadd, scale, vneg, cross]; ring

/-- The quaternion 2 times its `:inverse-quaternion` is 2. -/
theorem C120_inverse_quaternion_wrong :
    qmul ⟨2, ⟨0, 0, 0⟩⟩ (inverseQuaternion ⟨2, ⟨0, 0, 0⟩⟩) = ⟨2, ⟨0, 0, 0⟩⟩ := by
  have : norm ⟨2, ⟨0, 0, 0⟩⟩ = 2 := by
    rw [norm, show (2 : ℝ) * 2 + dot ⟨0, 0, 0⟩ ⟨0, 0, 0⟩ = 2 ^ 2 by simp [dot]; norm_num]
    exact Real.sqrt_sq (by norm_num)
  simp only [inverseQuaternion, this]
  ext <;> simp [qmul, dot, vadd, scale, vneg, cross]

/-- `:transform-vector` signals an error unless the program defines `v++`; if that adds its arguments, the
transformation is the inverse of `:inverse-transform-vector` on unit quaternions. -/
theorem C120_transform_partial (q : Quat) (hq : q.s * q.s + dot q.a q.a = 1) (v : V3) :
    transform (some fun a b c => vadd (vadd a b) c) q (inverseTransform q v) = some v := by
  have : (fun r => (transform (some fun a b c => vadd (vadd a b) c) q r)) = fun r => some (inverseTransform (conjugate q) r) := by
    funext r
    simp only [transform, Option.map_some, Option.some.injEq]
    ext <;> simp [inverseTransform, conjugate, vneg, vadd, vsub, scale, cross, dot] <;> ring
  rw [congrFun this]
  simp only [(C120_inverse_transform q q hq hq v v).2.2.2]

theorem C120_transform_wrong (q : Quat) (v : V3) : transform none q v = none := rfl

/-- Unit quaternions exist that are not real: i turns x y z into x -y -z. -/
example : (0 : ℝ) * 0 + dot ⟨1, 0, 0⟩ ⟨1, 0, 0⟩ = 1 ∧
    inverseTransform ⟨0, ⟨1, 0, 0⟩⟩ ⟨1, 2, 3⟩ = ⟨1, -2, -3⟩ := by
  constructor
  · simp [dot]
  · ext <;> simp [inverseTransform, vadd, vsub, scale, cross, dot]
    norm_num
example : (0 : ℝ) < dot ⟨0, 0, 2⟩ ⟨0, 0, 2⟩ := by simp [dot]

end Eus.Qua
