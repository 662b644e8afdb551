import Mathlib.Analysis.SpecialFunctions.Trigonometric.Bounds
import Mathlib.Analysis.Real.Pi.Bounds
import Mathlib.Analysis.SpecialFunctions.Complex.Arg
import Mathlib.LinearAlgebra.Matrix.Adjugate
import Mathlib.LinearAlgebra.Matrix.NonsingularInverse
import Mathlib.Tactic.LinearCombination
import Mathlib.Tactic.FinCases
import Mathlib.Tactic.NormNum
import Mathlib.Tactic.Linarith
import Mathlib.Tactic.Ring
import Mathlib.Tactic.FieldSimp
import Verif.Rpy.Model
import Verif.Rpy.Spec
set_option autoImplicit false
namespace Eus.Rpy
open Eus.Mat Spec

/-- The equations of a rotation. -/
structure Eqs (m : Nat → Nat → ℝ) : Prop where
  r00 : m 0 0 * m 0 0 + m 0 1 * m 0 1 + m 0 2 * m 0 2 = 1
  r11 : m 1 0 * m 1 0 + m 1 1 * m 1 1 + m 1 2 * m 1 2 = 1
  r22 : m 2 0 * m 2 0 + m 2 1 * m 2 1 + m 2 2 * m 2 2 = 1
  r01 : m 0 0 * m 1 0 + m 0 1 * m 1 1 + m 0 2 * m 1 2 = 0
  r02 : m 0 0 * m 2 0 + m 0 1 * m 2 1 + m 0 2 * m 2 2 = 0
  r12 : m 1 0 * m 2 0 + m 1 1 * m 2 1 + m 1 2 * m 2 2 = 0
  c00 : m 0 0 * m 0 0 + m 1 0 * m 1 0 + m 2 0 * m 2 0 = 1
  c11 : m 0 1 * m 0 1 + m 1 1 * m 1 1 + m 2 1 * m 2 1 = 1
  c22 : m 0 2 * m 0 2 + m 1 2 * m 1 2 + m 2 2 * m 2 2 = 1
  c01 : m 0 0 * m 0 1 + m 1 0 * m 1 1 + m 2 0 * m 2 1 = 0
  c02 : m 0 0 * m 0 2 + m 1 0 * m 1 2 + m 2 0 * m 2 2 = 0
  c12 : m 0 1 * m 0 2 + m 1 1 * m 1 2 + m 2 1 * m 2 2 = 0
  a00 : m 1 1 * m 2 2 - m 1 2 * m 2 1 = m 0 0
  a01 : m 1 2 * m 2 0 - m 1 0 * m 2 2 = m 0 1
  a02 : m 1 0 * m 2 1 - m 1 1 * m 2 0 = m 0 2
  a10 : m 0 2 * m 2 1 - m 0 1 * m 2 2 = m 1 0
  a11 : m 0 0 * m 2 2 - m 0 2 * m 2 0 = m 1 1
  a12 : m 0 1 * m 2 0 - m 0 0 * m 2 1 = m 1 2
  a20 : m 0 1 * m 1 2 - m 0 2 * m 1 1 = m 2 0
  a21 : m 0 2 * m 1 0 - m 0 0 * m 1 2 = m 2 1
  a22 : m 0 0 * m 1 1 - m 0 1 * m 1 0 = m 2 2

theorem eqs {m : Nat → Nat → ℝ} (h : IsRot (mat 3 m)) : Eqs m := by
  obtain ⟨h1, h2⟩ := h
  have h3 : (mat 3 m).transpose * mat 3 m = 1 := mul_eq_one_comm.mp h1
  have h4 : (mat 3 m).adjugate = (mat 3 m).transpose := by
    have e : mat 3 m * (mat 3 m).adjugate = 1 := by rw [Matrix.mul_adjugate, h2, one_smul]
    calc (mat 3 m).adjugate = ((mat 3 m).transpose * mat 3 m) * (mat 3 m).adjugate := by rw [h3, one_mul]
      _ = (mat 3 m).transpose := by rw [Matrix.mul_assoc, e, Matrix.mul_one]
  have f := fun i j => congrFun (congrFun h1 i) j
  have g := fun i j => congrFun (congrFun h3 i) j
  rw [Matrix.adjugate_fin_three] at h4
  have k := fun i j => congrFun (congrFun h4 i) j
  simp only [Matrix.mul_apply, Fin.sum_univ_three, Matrix.transpose_apply, mat, Matrix.of_apply] at f g
  have f00 := f 0 0; have f11 := f 1 1; have f22 := f 2 2; have f01 := f 0 1; have f02 := f 0 2; have f12 := f 1 2
  have g00 := g 0 0; have g11 := g 1 1; have g22 := g 2 2; have g01 := g 0 1; have g02 := g 0 2; have g12 := g 1 2
  have k00 := k 0 0; have k11 := k 1 1; have k22 := k 2 2; have k01 := k 0 1; have k02 := k 0 2; have k12 := k 1 2
  have k10 := k 1 0; have k20 := k 2 0; have k21 := k 2 1
  simp [mat] at f00 f11 f22 f01 f02 f12 g00 g11 g22 g01 g02 g12 k00 k11 k22 k01 k02 k12 k10 k20 k21
  constructor <;> linarith

/-- All functions that are equal where it matters -/
theorem mat_ext {m m' : Nat → Nat → ℝ} : mat 3 m = mat 3 m' ↔
    (m 0 0 = m' 0 0 ∧ m 0 1 = m' 0 1 ∧ m 0 2 = m' 0 2) ∧ (m 1 0 = m' 1 0 ∧ m 1 1 = m' 1 1 ∧ m 1 2 = m' 1 2) ∧
    (m 2 0 = m' 2 0 ∧ m 2 1 = m' 2 1 ∧ m 2 2 = m' 2 2) := by
  constructor
  · intro h
    have f := fun i j => congrFun (congrFun h i) j
    exact ⟨⟨f 0 0, f 0 1, f 0 2⟩, ⟨f 1 0, f 1 1, f 1 2⟩, ⟨f 2 0, f 2 1, f 2 2⟩⟩
  · rintro ⟨⟨h1, h2, h3⟩, ⟨h4, h5, h6⟩, ⟨h7, h8, h9⟩⟩
    ext i j
    fin_cases i <;> fin_cases j <;> assumption

/-- Complex.arg is an atan2. -/
theorem arg_isAtan2 : IsAtan2 fun y x => Complex.arg ⟨x, y⟩ where
  low y x := (Complex.neg_pi_lt_arg _).le
  high y x := Complex.arg_le_pi _
  cosine y x _ := by
    have := Complex.norm_mul_cos_arg ⟨x, y⟩
    rwa [Complex.norm_def, Complex.normSq_mk] at this
  sine y x _ := by
    have := Complex.norm_mul_sin_arg ⟨x, y⟩
    rwa [Complex.norm_def, Complex.normSq_mk] at this

/-- The angle of a vector of length 1 -/
theorem unit_angle {f : ℝ → ℝ → ℝ} (hf : IsAtan2 f) {y x : ℝ} (h : x * x + y * y = 1) :
    Real.cos (f y x) = x ∧ Real.sin (f y x) = y := by
  have hn : x ≠ 0 ∨ y ≠ 0 := by
    by_contra hc
    push Not at hc
    rw [hc.1, hc.2] at h; norm_num at h
  have h1 := hf.cosine y x hn
  have h2 := hf.sine y x hn
  rw [h, Real.sqrt_one, one_mul] at h1 h2
  exact ⟨h1, h2⟩

/-- Turning (x,y) back by its angle -/
theorem turn_back {f : ℝ → ℝ → ℝ} (hf : IsAtan2 f) (y x : ℝ) :
    -(Real.sin (f y x)) * x + Real.cos (f y x) * y = 0 := by
  by_cases hn : x ≠ 0 ∨ y ≠ 0
  · have h1 := hf.cosine y x hn
    have h2 := hf.sine y x hn
    linear_combination Real.sin (f y x) * h1 - Real.cos (f y x) * h2
  · push Not at hn
    rw [hn.1, hn.2]; ring

theorem rpy_elems (a b c : ℝ) : mat 3 (rpyMatrix a b c) = Z a * Y b * X c := by
  ext i j
  fin_cases i <;> fin_cases j <;>
    simp [mat, rpyMatrix, rotateMatrix, rotationMatrix, Axis.coef, loop, upd, mat9, Z, Y, X, Matrix.mul_apply, Fin.sum_univ_three] <;> ring

theorem euler_elems (a b c : ℝ) : mat 3 (eulerMatrix a b c) = Z a * Y b * Z c := by
  ext i j
  fin_cases i <;> fin_cases j <;>
    simp [mat, eulerMatrix, rotateMatrix, rotationMatrix, Axis.coef, loop, upd, mat9, Z, Y, Matrix.mul_apply, Fin.sum_univ_three] <;> ring

theorem ZYX (a b c : ℝ) : Z a * Y b * X c = mat 3 (mat9
    (Real.cos a * Real.cos b) (Real.cos a * Real.sin b * Real.sin c - Real.sin a * Real.cos c)
    (Real.cos a * Real.sin b * Real.cos c + Real.sin a * Real.sin c)
    (Real.sin a * Real.cos b) (Real.sin a * Real.sin b * Real.sin c + Real.cos a * Real.cos c)
    (Real.sin a * Real.sin b * Real.cos c - Real.cos a * Real.sin c)
    (-Real.sin b) (Real.cos b * Real.sin c) (Real.cos b * Real.cos c)) := by
  ext i j
  fin_cases i <;> fin_cases j <;>
    simp [mat, mat9, Z, Y, X, Matrix.mul_apply, Fin.sum_univ_three] <;> ring

theorem ZYZ (a b c : ℝ) : Z a * Y b * Z c = mat 3 (mat9
    (Real.cos a * Real.cos b * Real.cos c - Real.sin a * Real.sin c)
    (-Real.cos a * Real.cos b * Real.sin c - Real.sin a * Real.cos c) (Real.cos a * Real.sin b)
    (Real.sin a * Real.cos b * Real.cos c + Real.cos a * Real.sin c)
    (-Real.sin a * Real.cos b * Real.sin c + Real.cos a * Real.cos c) (Real.sin a * Real.sin b)
    (-Real.sin b * Real.cos c) (Real.sin b * Real.sin c) (Real.cos b)) := by
  ext i j
  fin_cases i <;> fin_cases j <;>
    simp [mat, mat9, Z, Y, Matrix.mul_apply, Fin.sum_univ_three] <;> ring

theorem mat_mat9 (m : Nat → Nat → ℝ) (a b c d e f g h i : ℝ) : mat 3 (mat9 a b c d e f g h i) = mat 3 m ↔
    (a = m 0 0 ∧ b = m 0 1 ∧ c = m 0 2) ∧ (d = m 1 0 ∧ e = m 1 1 ∧ f = m 1 2) ∧ (g = m 2 0 ∧ h = m 2 1 ∧ i = m 2 2) :=
  mat_ext

theorem cs1 (a : ℝ) : Real.cos a * Real.cos a + Real.sin a * Real.sin a = 1 := by
  have := Real.cos_sq_add_sin_sq a; linarith [sq (Real.cos a), sq (Real.sin a)]

/-- Any first angle that takes the element (1,0) away is right. -/
theorem rpyFrom_right {f : ℝ → ℝ → ℝ} (hf : IsAtan2 f) {m : Nat → Nat → ℝ} (e : Eqs m) (a : ℝ)
    (h : -Real.sin a * m 0 0 + Real.cos a * m 1 0 = 0) :
    Z (rpyFrom f m a).1 * Y (rpyFrom f m a).2.1 * X (rpyFrom f m a).2.2 = mat 3 m := by
  have hcs := cs1 a
  simp only [rpyFrom]
  rw [ZYX, mat_mat9]
  obtain ⟨hb1, hb2⟩ := unit_angle hf (y := -(m 2 0)) (x := Real.cos a * m 0 0 + Real.sin a * m 1 0) (by
    linear_combination e.c00 + (m 0 0 * m 0 0 + m 1 0 * m 1 0) * hcs - (-Real.sin a * m 0 0 + Real.cos a * m 1 0) * h)
  obtain ⟨hc1, hc2⟩ := unit_angle hf (y := Real.sin a * m 0 2 - Real.cos a * m 1 2) (x := -Real.sin a * m 0 1 + Real.cos a * m 1 1) (by
    linear_combination Real.sin a ^ 2 * e.r00 + Real.cos a ^ 2 * e.r11 - 2 * Real.sin a * Real.cos a * e.r01 + hcs - (-Real.sin a * m 0 0 + Real.cos a * m 1 0) * h)
  rw [hb1, hb2, hc1, hc2]
  generalize Real.cos a = ca at *
  generalize Real.sin a = sa at *
  refine ⟨⟨?_, ?_, ?_⟩, ⟨?_, ?_, ?_⟩, ⟨?_, ?_, ?_⟩⟩
  · linear_combination m 0 0 * hcs + sa * h
  · linear_combination ca * sa * e.a11 + ca ^ 2 * e.a01 + m 0 1 * hcs + ca * m 2 2 * h
  · linear_combination ca * sa * e.a12 + ca ^ 2 * e.a02 + m 0 2 * hcs - ca * m 2 1 * h
  · linear_combination m 1 0 * hcs - ca * h
  · linear_combination sa ^ 2 * e.a11 + sa * ca * e.a01 + m 1 1 * hcs + sa * m 2 2 * h
  · linear_combination sa ^ 2 * e.a12 + sa * ca * e.a02 + m 1 2 * hcs - sa * m 2 1 * h
  · ring
  · linear_combination e.a21 + (m 0 2 * m 1 0 - m 0 0 * m 1 2) * hcs - (ca * m 0 2 + sa * m 1 2) * h
  · linear_combination e.a22 + (m 0 0 * m 1 1 - m 0 1 * m 1 0) * hcs + (sa * m 1 1 + ca * m 0 1) * h

/-- Any first angle that takes the element (1,2) away is right. -/
theorem eulerFrom_right {f : ℝ → ℝ → ℝ} (hf : IsAtan2 f) {m : Nat → Nat → ℝ} (e : Eqs m) (a : ℝ)
    (h : -Real.sin a * m 0 2 + Real.cos a * m 1 2 = 0) :
    Z (eulerFrom f m a).1 * Y (eulerFrom f m a).2.1 * Z (eulerFrom f m a).2.2 = mat 3 m := by
  have hcs := cs1 a
  simp only [eulerFrom]
  rw [ZYZ, mat_mat9]
  obtain ⟨hb1, hb2⟩ := unit_angle hf (y := Real.cos a * m 0 2 + Real.sin a * m 1 2) (x := m 2 2) (by
    linear_combination e.c22 + (m 0 2 * m 0 2 + m 1 2 * m 1 2) * hcs - (-Real.sin a * m 0 2 + Real.cos a * m 1 2) * h)
  obtain ⟨hc1, hc2⟩ := unit_angle hf (y := -Real.sin a * m 0 0 + Real.cos a * m 1 0) (x := -Real.sin a * m 0 1 + Real.cos a * m 1 1) (by
    linear_combination Real.sin a ^ 2 * e.r00 + Real.cos a ^ 2 * e.r11 - 2 * Real.sin a * Real.cos a * e.r01 + hcs - (-Real.sin a * m 0 2 + Real.cos a * m 1 2) * h)
  rw [hb1, hb2, hc1, hc2]
  generalize Real.cos a = ca at *
  generalize Real.sin a = sa at *
  refine ⟨⟨?_, ?_, ?_⟩, ⟨?_, ?_, ?_⟩, ⟨?_, ?_, ?_⟩⟩
  · linear_combination ca * sa * e.a10 + ca ^ 2 * e.a00 + m 0 0 * hcs + ca * m 2 1 * h
  · linear_combination ca * sa * e.a11 + ca ^ 2 * e.a01 + m 0 1 * hcs - ca * m 2 0 * h
  · linear_combination m 0 2 * hcs + sa * h
  · linear_combination sa ^ 2 * e.a10 + sa * ca * e.a00 + m 1 0 * hcs + sa * m 2 1 * h
  · linear_combination sa ^ 2 * e.a11 + sa * ca * e.a01 + m 1 1 * hcs - sa * m 2 0 * h
  · linear_combination m 1 2 * hcs - ca * h
  · linear_combination e.a20 + (m 0 1 * m 1 2 - m 0 2 * m 1 1) * hcs - (ca * m 0 1 + sa * m 1 1) * h
  · linear_combination e.a21 + (m 0 2 * m 1 0 - m 0 0 * m 1 2) * hcs + (ca * m 0 0 + sa * m 1 0) * h
  · ring

/-! ### The axis -/

theorem skew_norm {m : Nat → Nat → ℝ} (e : Eqs m) :
    (m 2 1 - m 1 2) * (m 2 1 - m 1 2) + (m 0 2 - m 2 0) * (m 0 2 - m 2 0) + (m 1 0 - m 0 1) * (m 1 0 - m 0 1) +
      (m 0 0 + m 1 1 + m 2 2 - 1) * (m 0 0 + m 1 1 + m 2 2 - 1) = 4 := by
  linear_combination e.r00 + e.r11 + e.r22 + 2 * e.a00 + 2 * e.a11 + 2 * e.a22

/-- What is used of a rotation with the cosine cs: d for the diagonal, p for the symmetric part, t for the skew part. -/
structure Sym (cs dx dy dz pxy pxz pyz tx ty tz : ℝ) : Prop where
  xx : tx * tx = 4 * (1 + cs) * dx
  yy : ty * ty = 4 * (1 + cs) * dy
  zz : tz * tz = 4 * (1 + cs) * dz
  xy : tx * ty = 2 * (1 + cs) * pxy
  xz : tx * tz = 2 * (1 + cs) * pxz
  yz : ty * tz = 2 * (1 + cs) * pyz
  dxy : 4 * dx * dy = pxy * pxy
  dxz : 4 * dx * dz = pxz * pxz
  dyz : 4 * dy * dz = pyz * pyz
  px : pxy * pxz = 2 * dx * pyz
  py : pxy * pyz = 2 * dy * pxz
  pz : pxz * pyz = 2 * dz * pxy
  sum : dx + dy + dz = 1 - cs
  nonnegx : 0 ≤ dx
  nonnegy : 0 ≤ dy
  nonnegz : 0 ≤ dz

theorem Sym.rot {cs dx dy dz pxy pxz pyz tx ty tz : ℝ} (h : Sym cs dx dy dz pxy pxz pyz tx ty tz) :
    Sym cs dy dx dz pxy pyz pxz ty tx tz where
  xx := h.yy
  yy := h.xx
  zz := h.zz
  xy := by linear_combination h.xy
  xz := h.yz
  yz := h.xz
  dxy := by linear_combination h.dxy
  dxz := h.dyz
  dyz := h.dxz
  px := h.py
  py := h.px
  pz := by linear_combination h.pz
  sum := by linear_combination h.sum
  nonnegx := h.nonnegy
  nonnegy := h.nonnegx
  nonnegz := h.nonnegz

theorem Sym.swap {cs dx dy dz pxy pxz pyz tx ty tz : ℝ} (h : Sym cs dx dy dz pxy pxz pyz tx ty tz) :
    Sym cs dx dz dy pxz pxy pyz tx tz ty where
  xx := h.xx
  yy := h.zz
  zz := h.yy
  xy := h.xz
  xz := h.xy
  yz := by linear_combination h.yz
  dxy := h.dxz
  dxz := h.dxy
  dyz := by linear_combination h.dyz
  px := by linear_combination h.px
  py := h.pz
  pz := h.py
  sum := by linear_combination h.sum
  nonnegx := h.nonnegx
  nonnegy := h.nonnegz
  nonnegz := h.nonnegy

theorem eq_sym {m : Nat → Nat → ℝ} (e : Eqs m) (cs : ℝ) (hcs : cs = (m 0 0 + m 1 1 + m 2 2 - 1) / 2) :
    Sym cs (m 0 0 - cs) (m 1 1 - cs) (m 2 2 - cs) (m 1 0 + m 0 1) (m 0 2 + m 2 0) (m 1 2 + m 2 1)
      (m 2 1 - m 1 2) (m 0 2 - m 2 0) (m 1 0 - m 0 1) := by
  have htr : 2 * cs = m 0 0 + m 1 1 + m 2 2 - 1 := by linarith
  have hxx : (m 2 1 - m 1 2) * (m 2 1 - m 1 2) = 4 * (1 + cs) * (m 0 0 - cs) := by
    rw [hcs]; linear_combination e.r11 + e.r22 - e.c00 + 2 * e.a00
  have hyy : (m 0 2 - m 2 0) * (m 0 2 - m 2 0) = 4 * (1 + cs) * (m 1 1 - cs) := by
    rw [hcs]; linear_combination e.r00 + e.r22 - e.c11 + 2 * e.a11
  have hzz : (m 1 0 - m 0 1) * (m 1 0 - m 0 1) = 4 * (1 + cs) * (m 2 2 - cs) := by
    rw [hcs]; linear_combination e.r00 + e.r11 - e.c22 + 2 * e.a22
  have hdxy : 4 * (m 0 0 - cs) * (m 1 1 - cs) = (m 1 0 + m 0 1) * (m 1 0 + m 0 1) := by
    rw [hcs]; linear_combination -e.r00 - e.r11 + e.c22 + 2 * e.a22
  have hdxz : 4 * (m 0 0 - cs) * (m 2 2 - cs) = (m 0 2 + m 2 0) * (m 0 2 + m 2 0) := by
    rw [hcs]; linear_combination -e.r00 - e.r22 + e.c11 + 2 * e.a11
  have hdyz : 4 * (m 1 1 - cs) * (m 2 2 - cs) = (m 1 2 + m 2 1) * (m 1 2 + m 2 1) := by
    rw [hcs]; linear_combination -e.r11 - e.r22 + e.c00 + 2 * e.a00
  have hsum : (m 0 0 - cs) + (m 1 1 - cs) + (m 2 2 - cs) = 1 - cs := by linarith
  -- |cs| ≤ 1
  have hsk := skew_norm e
  have hc1 : cs ≤ 1 := by nlinarith [mul_self_nonneg (m 2 1 - m 1 2), mul_self_nonneg (m 0 2 - m 2 0), mul_self_nonneg (m 1 0 - m 0 1)]
  have nn : ∀ x y z : ℝ, x + y + z = 1 - cs → 0 ≤ x * y → 0 ≤ x * z → 0 ≤ x := by
    intro x y z h1 h2 h3
    nlinarith [mul_self_nonneg x]
  have q1 := mul_self_nonneg (m 1 0 + m 0 1)
  have q2 := mul_self_nonneg (m 0 2 + m 2 0)
  have q3 := mul_self_nonneg (m 1 2 + m 2 1)
  exact {
    xx := hxx, yy := hyy, zz := hzz
    xy := by rw [hcs]; linear_combination e.a10 + e.a01 - e.c01 - e.r01
    xz := by rw [hcs]; linear_combination e.a20 + e.a02 - e.c02 - e.r02
    yz := by rw [hcs]; linear_combination e.a21 + e.a12 - e.c12 - e.r12
    dxy := hdxy, dxz := hdxz, dyz := hdyz
    px := by rw [hcs]; linear_combination e.a12 + e.a21 + e.c12 + e.r12
    py := by rw [hcs]; linear_combination e.a02 + e.a20 + e.c02 + e.r02
    pz := by rw [hcs]; linear_combination e.a01 + e.a10 + e.c01 + e.r01
    sum := hsum
    nonnegx := nn _ (m 1 1 - cs) (m 2 2 - cs) hsum (by nlinarith) (by nlinarith)
    nonnegy := nn _ (m 0 0 - cs) (m 2 2 - cs) (by linarith) (by nlinarith) (by nlinarith)
    nonnegz := nn _ (m 0 0 - cs) (m 1 1 - cs) (by linarith) (by nlinarith) (by nlinarith) }

theorem fdiv_some {x y : ℝ} (h : y ≠ 0) : fdiv x y = some (x / y) := if_neg h

theorem unify_unit {x y z : ℝ} (h : x * x + y * y + z * z = 1) : unify x y z = some (y, z) := by
  simp only [unify]
  by_cases hd : 1 - x * x = 0
  · rw [if_pos hd, if_pos (by linarith)]
  · have hq : (y * y + z * z) / (1 - x * x) = 1 := by
      rw [div_eq_one_iff_eq hd]; linarith
    rw [if_neg hd, hq, if_neg (by norm_num), Real.sqrt_one, fdiv_some one_ne_zero, fdiv_some one_ne_zero]
    simp

/-- From the largest component the others. -/
theorem refine_right {cs sn dx dy dz pxy pxz pyz tx ty tz : ℝ} (h : Sym cs dx dy dz pxy pxz pyz tx ty tz)
    (hv : 0 < 1 - cs) (hs : sn * sn = 1 - cs * cs) (x : ℝ) (hx : x ≠ 0) (h1 : x * x * (1 - cs) = dx) (h2 : 2 * sn * x = tx) :
    ∃ y z, refine x pxy pxz (1 - cs) = some (y, z) ∧ x * x + y * y + z * z = 1 ∧
      y * y * (1 - cs) = dy ∧ z * z * (1 - cs) = dz ∧ 2 * (x * y * (1 - cs)) = pxy ∧ 2 * (x * z * (1 - cs)) = pxz ∧ 2 * (y * z * (1 - cs)) = pyz ∧
      2 * sn * y = ty ∧ 2 * sn * z = tz := by
  have hv0 : 1 - cs ≠ 0 := hv.ne'
  have hdx : dx ≠ 0 := by
    rw [← h1]; exact mul_ne_zero (mul_ne_zero hx hx) hv0
  have hd : 2 * x * (1 - cs) ≠ 0 := mul_ne_zero (mul_ne_zero two_ne_zero hx) hv0
  obtain ⟨y, hy⟩ : ∃ y, y = pxy / (2 * x * (1 - cs)) := ⟨_, rfl⟩
  obtain ⟨z, hz⟩ : ∃ z, z = pxz / (2 * x * (1 - cs)) := ⟨_, rfl⟩
  have ey : 2 * (x * y * (1 - cs)) = pxy := by rw [hy]; field_simp
  have ez : 2 * (x * z * (1 - cs)) = pxz := by rw [hz]; field_simp
  have eyy : y * y * (1 - cs) = dy := by
    apply mul_left_cancel₀ (mul_ne_zero four_ne_zero hdx)
    rw [h.dxy, ← ey, ← h1]; ring
  have ezz : z * z * (1 - cs) = dz := by
    apply mul_left_cancel₀ (mul_ne_zero four_ne_zero hdx)
    rw [h.dxz, ← ez, ← h1]; ring
  have eyz : 2 * (y * z * (1 - cs)) = pyz := by
    apply mul_left_cancel₀ (mul_ne_zero two_ne_zero hdx)
    rw [← h.px, ← ey, ← ez, ← h1]; ring
  have eu : x * x + y * y + z * z = 1 := by
    apply mul_left_cancel₀ hv0
    linear_combination h1 + eyy + ezz + h.sum
  have e2 : 2 * sn * y = ty := by
    by_cases hsn : sn = 0
    · have hc : 1 + cs = 0 := by
        have : (1 - cs) * (1 + cs) = 0 := by rw [hsn] at hs; linarith
        rcases mul_eq_zero.mp this with h | h
        · exact absurd h hv0
        · exact h
      have := h.yy
      rw [hc] at this
      have ht : ty = 0 := by
        have : ty * ty = 0 := by linarith
        exact mul_self_eq_zero.mp this
      rw [hsn, ht]; ring
    · have ht : tx ≠ 0 := by rw [← h2]; exact mul_ne_zero (mul_ne_zero two_ne_zero hsn) hx
      apply mul_left_cancel₀ ht
      have := h.xy
      have : tx * ty * (1 - cs) = tx * (2 * sn * y) * (1 - cs) := by
        rw [this, ← ey, ← h2]
        linear_combination (-4 * x * y * (1 - cs)) * hs
      exact (mul_right_cancel₀ hv0 this).symm
  have e3 : 2 * sn * z = tz := by
    by_cases hsn : sn = 0
    · have hc : 1 + cs = 0 := by
        have : (1 - cs) * (1 + cs) = 0 := by rw [hsn] at hs; linarith
        rcases mul_eq_zero.mp this with h | h
        · exact absurd h hv0
        · exact h
      have := h.zz
      rw [hc] at this
      have ht : tz = 0 := by
        have : tz * tz = 0 := by linarith
        exact mul_self_eq_zero.mp this
      rw [hsn, ht]; ring
    · have ht : tx ≠ 0 := by rw [← h2]; exact mul_ne_zero (mul_ne_zero two_ne_zero hsn) hx
      apply mul_left_cancel₀ ht
      have := h.xz
      have : tx * tz * (1 - cs) = tx * (2 * sn * z) * (1 - cs) := by
        rw [this, ← ez, ← h2]
        linear_combination (-4 * x * z * (1 - cs)) * hs
      exact (mul_right_cancel₀ hv0 this).symm
  refine ⟨y, z, ?_, eu, eyy, ezz, ey, ez, eyz, e2, e3⟩
  simp only [refine, fdiv_some hd, ← hy, ← hz]
  exact unify_unit eu

/-- What the two ways to the first axis have in common. -/
structure First (cs sn dx dy dz tx ty tz x y z : ℝ) : Prop where
  xx : x * x * (1 - cs) = dx
  yy : y * y * (1 - cs) = dy
  zz : z * z * (1 - cs) = dz
  sx : 2 * sn * x = tx
  sy : 2 * sn * y = ty
  sz : 2 * sn * z = tz

theorem signedRoot_right {cs sn d t : ℝ} (hv : 0 < 1 - cs) (hs0 : 0 ≤ sn) (hs : sn * sn = 1 - cs * cs) (hd : 0 ≤ d) (ht : t * t = 4 * (1 + cs) * d) :
    ∃ k, signedRoot (d / (1 - cs)) t = some k ∧ k * k * (1 - cs) = d ∧ 2 * sn * k = t := by
  have hq : 0 ≤ d / (1 - cs) := div_nonneg hd hv.le
  have hk := Real.mul_self_sqrt hq
  have hr := Real.sqrt_nonneg (d / (1 - cs))
  set r := Real.sqrt (d / (1 - cs)) with hrd
  have hrr : r * r * (1 - cs) = d := by rw [hk]; field_simp
  have h4 : (2 * sn * r) * (2 * sn * r) = t * t := by
    rw [ht, ← hrr]; linear_combination (4 * r * r) * hs
  have habs : 2 * sn * r = |t| := by
    have h5 : 0 ≤ 2 * sn * r := mul_nonneg (mul_nonneg (by norm_num) hs0) hr
    rw [← abs_mul_abs_self t] at h4
    exact (mul_self_inj h5 (abs_nonneg t)).mp h4
  simp only [signedRoot, fsqrt, if_neg (not_lt.mpr hq), ← hrd]
  by_cases h : t < 0
  · refine ⟨-r, by simp [h], by linarith [hrr], ?_⟩
    rw [abs_of_neg h] at habs; linarith
  · refine ⟨r, by simp [h], hrr, ?_⟩
    rw [abs_of_nonneg (not_lt.mp h)] at habs; exact habs

theorem axisLarge_right {m : Nat → Nat → ℝ} {cs sn pxy pxz pyz tx ty tz : ℝ}
    (h : Sym cs (m 0 0 - cs) (m 1 1 - cs) (m 2 2 - cs) pxy pxz pyz tx ty tz)
    (hv : 0 < 1 - cs) (hs0 : 0 ≤ sn) (hs : sn * sn = 1 - cs * cs) :
    ∃ x y z, axisLarge m cs (1 - cs) tx ty tz = some (x, y, z) ∧ First cs sn (m 0 0 - cs) (m 1 1 - cs) (m 2 2 - cs) tx ty tz x y z := by
  obtain ⟨x, ex, x1, x2⟩ := signedRoot_right hv hs0 hs h.nonnegx h.xx
  obtain ⟨y, ey, y1, y2⟩ := signedRoot_right hv hs0 hs h.nonnegy h.yy
  obtain ⟨z, ez, z1, z2⟩ := signedRoot_right hv hs0 hs h.nonnegz h.zz
  refine ⟨x, y, z, ?_, ⟨x1, y1, z1, x2, y2, z2⟩⟩
  simp [axisLarge, fdiv_some hv.ne', ex, ey, ez]

theorem axisSmall_right {cs sn dx dy dz pxy pxz pyz tx ty tz : ℝ} (h : Sym cs dx dy dz pxy pxz pyz tx ty tz)
    (hs0 : 0 < sn) (hs : sn * sn = 1 - cs * cs) (hv : 0 < 1 - cs) :
    ∃ x y z, axisSmall tx ty tz (2 * sn) = some (x, y, z) ∧ First cs sn dx dy dz tx ty tz x y z := by
  have h2 : 2 * sn ≠ 0 := by positivity
  have hc : 1 + cs ≠ 0 := by
    intro e
    have : sn * sn = 0 := by rw [hs]; linear_combination (1 - cs) * e
    exact hs0.ne' (mul_self_eq_zero.mp this)
  have key : ∀ t d : ℝ, t * t = 4 * (1 + cs) * d → t / (2 * sn) * (t / (2 * sn)) * (1 - cs) = d := by
    intro t d e
    have : t / (2 * sn) * (t / (2 * sn)) = t * t / (4 * (sn * sn)) := by field_simp; ring
    rw [this, e, hs]
    have hv' := hv.ne'
    have : 1 - cs * cs = (1 - cs) * (1 + cs) := by ring
    rw [this]
    field_simp
  exact ⟨_, _, _, by simp [axisSmall, fdiv_some h2], ⟨key _ _ h.xx, key _ _ h.yy, key _ _ h.zz, by field_simp, by field_simp, by field_simp⟩⟩

end Eus.Rpy
